import Verif.HuginPots
import Verif.Props.NetTable

/-! # Reading a whole network file -/

namespace Nip

open Res Spec Parse

variable {K : Type}

/-- one link -/
def linkStep (ι : List Char → Nat) (nx : Nat → Option Nat) (e : Nat × List Char) : Nat → Option Nat := Function.update nx e.1 (some (ι e.2))

theorem linkVars_eq (recs : List NodeRec) (ι : List Char → Nat) (l : List (Nat × List Char)) : ∀ nx : Nat → Option Nat,
    (∀ e ∈ l, searchVar recs e.2 = some (ι e.2) ∧ cardOf recs e.1 = cardOf recs (ι e.2)) →
    linkVars recs l nx = ok (some (l.foldl (linkStep ι) nx)) := by
  induction l with
  | nil => intro nx _; rfl
  | cons e l ih =>
    intro nx h
    obtain ⟨v, w⟩ := e
    obtain ⟨h1, h2⟩ := h (v, w) (by simp)
    rw [linkVars, h1]
    simp only
    rw [if_pos h2, ih _ (fun e he => h e (by simp [he]))]
    rfl

theorem mem_links {e : Nat × List Char} (ns : List NodeText) : ∀ i, e ∈ linksFrom i ns → ∃ j, ∃ h : j < ns.length, e.1 = i + j ∧ ns[j].next = some e.2 := by
  induction ns with
  | nil => intro i h; simp [linksFrom] at h
  | cons n ns ih =>
    intro i h
    rw [linksFrom, List.mem_append] at h
    rcases h with h | h
    · simp only [Option.mem_toList, Option.map_eq_some_iff] at h
      obtain ⟨w, hw, rfl⟩ := h
      exact ⟨0, by simp, rfl, hw⟩
    · obtain ⟨j, hj, h1, h2⟩ := ih (i + 1) h
      exact ⟨j + 1, by simpa using hj, by omega, by simpa using h2⟩

theorem links_other (ι : List Char → Nat) (ns : List NodeText) : ∀ (i : Nat) (nx : Nat → Option Nat) (v : Nat), v < i →
    ((linksFrom i ns).foldl (linkStep ι) nx) v = nx v := by
  induction ns with
  | nil => intro i nx v _; rfl
  | cons n ns ih =>
    intro i nx v h
    rw [linksFrom, List.foldl_append, ih (i + 1) _ v (by omega)]
    cases n.next with
    | none => rfl
    | some w => simp [linkStep, Function.update_apply, Nat.ne_of_lt h]

theorem links_next (ι : List Char → Nat) (ns : List NodeText) : ∀ (i : Nat) (nx : Nat → Option Nat) (j : Nat) (h : j < ns.length), (∀ v, i ≤ v → nx v = none) →
    ((linksFrom i ns).foldl (linkStep ι) nx) (i + j) = ns[j].next.map ι := by
  induction ns with
  | nil => intro i nx j h; simp at h
  | cons n ns ih =>
    intro i nx j h hnx
    rw [linksFrom, List.foldl_append]
    cases j with
    | zero =>
      rw [links_other ι ns (i + 1) _ (i + 0) (by omega)]
      cases hw : n.next with
      | none => simp [hw, hnx i (Nat.le_refl _)]
      | some w => simp [hw, linkStep]
    | succ j =>
      rw [show i + (j + 1) = i + 1 + j by omega, ih (i + 1) _ j (by simpa using h)]
      · rfl
      · intro v hv
        cases n.next with
        | none => exact hnx v (by omega)
        | some w => simp [linkStep, Function.update_apply, show v ≠ i by omega, hnx v (by omega)]

variable [Field K] [LinearOrder K]

theorem parseTables_each {card : Nat → Nat} (ds : List (Declaration K)) : ∀ l, parseTables card ds = ok (some l) →
    List.Forall₂ (fun d q => potentialDeclaration card d.child d.symbols d.data = ok (some q)) ds l := by
  induction ds with
  | nil =>
    intro l h
    simp only [parseTables] at h
    rw [← Option.some.inj (Res.ok.inj h)]
    exact List.Forall₂.nil
  | cons d ds ih =>
    intro l h
    simp only [parseTables] at h
    obtain ⟨q, hq, h⟩ := bind_ok h
    cases q with
    | none => simp at h
    | some q =>
      simp only at h
      obtain ⟨l', hl', h⟩ := bind_ok h
      cases l' with
      | none => simp at h
      | some l' =>
        simp only at h
        rw [← Option.some.inj (Res.ok.inj h)]
        exact List.Forall₂.cons hq (ih l' hl')

/-- the potentials of a description, by identities -/
def NetText.declarations (d : NetText) (num : Numerals K) (base : Nat) : List (Declaration K) :=
  d.pots.map (fun p => ⟨base + d.place p.child, p.parents.map (fun l => l.map (fun w => base + d.place w)), p.data.map (fun gr => gr.words.map num.value)⟩)

/-- the file that a description stands for -/
def NetText.file (d : NetText) (num : Numerals K) (base : Nat) (l : List (Parsed K)) : NetFile K :=
  { vars := List.range' base d.nodes.length, card := cardOf (recsFrom num base d.nodes)
    next := (linksFrom base d.nodes).foldl (linkStep (fun w => base + d.place w)) (fun _ => none), pots := l }

variable [IsStrictOrderedRing K]

/-- The declarations of a description that makes sense give a valid network, which is the one described. -/
theorem describes {d : NetText} {num : Numerals K} (hd : d.Sensible num.value num.int) (hp : d.pots ≠ []) {base : Nat} (hb : 0 < base) :
    ∃ l, parseTables (cardOf (recsFrom num base d.nodes)) (NetText.declarations d num base) = ok (some l) ∧
      (NetText.file d num base l).Valid ∧ d.Describes num.value base (NetText.file d num base l) := by
  obtain ⟨C, hC⟩ : ∃ C, C = cardOf (recsFrom num base d.nodes) := ⟨_, rfl⟩
  have hcard : ∀ w, (∃ n ∈ d.nodes, n.name = w) → C (base + d.place w) = d.card w := fun w h => by rw [hC]; exact card_recs num h base
  have hinj : ∀ w u, (∃ n ∈ d.nodes, n.name = w) → (∃ n ∈ d.nodes, n.name = u) → base + d.place w = base + d.place u → w = u := by
    intro w u hw hu h
    have h' : d.place w = d.place u := by omega
    rw [← place_name hw, ← place_name hu]
    simp only [h']
  have hstates : ∀ v ∈ List.range' base d.nodes.length, 0 < C v := by
    intro v hv
    rw [List.mem_range'_1] at hv
    obtain ⟨j, rfl⟩ : ∃ j, v = base + j := ⟨v - base, by omega⟩
    have hj : j < d.nodes.length := by omega
    rw [hC, cardOf_recs num d.nodes base j hj]
    exact List.length_pos_iff.2 (hd.nodes _ (List.getElem_mem hj)).states
  have hsorted : (List.range' base d.nodes.length).Pairwise (· < ·) := List.pairwise_lt_range'
  have hmem : ∀ w, (∃ n ∈ d.nodes, n.name = w) → base + d.place w ∈ List.range' base d.nodes.length := by
    intro w hw
    rw [List.mem_range'_1]
    have := place_lt hw
    omega
  have hnodup : ∀ p ∈ d.pots, ((p.child :: p.parents.getD []).map (fun w => base + d.place w)).Nodup := by
    intro p hpp
    refine List.Nodup.map_on ?_ (hd.pots p hpp).distinct
    intro w hw u hu h
    exact hinj w u ((hd.pots p hpp).names w hw) ((hd.pots p hpp).names u hu) h
  have hgetD : ∀ p : PotText, (p.parents.map (fun l => l.map (fun w => base + d.place w))).getD [] = (p.parents.getD []).map (fun w => base + d.place w) := by
    intro p; cases p.parents <;> rfl
  have hfam : ∀ p : PotText, (base + d.place p.child) :: (p.parents.map (fun l => l.map (fun w => base + d.place w))).getD [] =
      (p.child :: p.parents.getD []).map (fun w => base + d.place w) := by
    intro p; rw [hgetD]; rfl
  have hdecl : ∀ p ∈ d.pots, Declared C (base + d.place p.child) (p.parents.map (fun l => l.map (fun w => base + d.place w)))
      (p.data.map (fun gr => gr.words.map num.value)) := by
    intro p hpp
    have hs := hd.pots p hpp
    have hnd := hnodup p hpp
    refine ⟨?_, ?_, ?_⟩
    · intro l hl
      rw [Option.map_eq_some_iff] at hl
      obtain ⟨m, hm, rfl⟩ := hl
      rw [hm, Option.getD_some, List.map_cons, List.nodup_cons] at hnd
      exact ⟨by simpa using hs.parents m hm, hnd.2, hnd.1⟩
    · intro v hv
      rw [hfam, List.mem_map] at hv
      obtain ⟨w, hw, rfl⟩ := hv
      exact hstates _ (hmem w (hs.names w hw))
    · intro a ha
      rw [Option.map_eq_some_iff] at ha
      obtain ⟨gr, hgr, rfl⟩ := ha
      obtain ⟨h1, h2⟩ := hs.numbers gr hgr
      refine ⟨?_, ?_⟩
      · rw [hfam, List.map_map, List.length_map]
        refine Nat.le_trans (Nat.le_of_eq ?_) h1
        congr 1
        refine List.map_congr_left fun w hw => ?_
        exact hcard w (hs.names w hw)
      · intro a ha
        obtain ⟨w, hw, rfl⟩ := List.mem_map.1 ha
        exact h2 w hw
  have hin : ∀ p ∈ d.pots, ∀ v ∈ (base + d.place p.child) :: (p.parents.map (fun l => l.map (fun w => base + d.place w))).getD [],
      v ∈ List.range' base d.nodes.length := by
    intro p hpp v hv
    rw [hfam, List.mem_map] at hv
    obtain ⟨w, hw, rfl⟩ := hv
    exact hmem w ((hd.pots p hpp).names w hw)
  obtain ⟨l, hl, hV, _⟩ := Props.C46_file (List.range' base d.nodes.length) C
    ((linksFrom base d.nodes).foldl (linkStep (fun w => base + d.place w)) (fun _ => none)) (NetText.declarations d num base)
    hsorted (by intro v hv; rw [List.mem_range'_1] at hv; omega) hstates (by unfold NetText.declarations; simpa using hp)
    (by
      intro e he
      unfold NetText.declarations at he
      obtain ⟨p, hpp, rfl⟩ := List.mem_map.1 he
      exact ⟨hdecl p hpp, hin p hpp⟩)
    (by
      unfold NetText.declarations
      rw [List.map_map]
      have : ((fun d => d.child) ∘ fun p : PotText => (⟨base + d.place p.child, p.parents.map (fun l => l.map (fun w => base + d.place w)),
          p.data.map (fun gr => gr.words.map num.value)⟩ : Declaration K)) = (fun w => base + d.place w) ∘ (fun p : PotText => p.child) := rfl
      rw [this, ← List.map_map]
      refine List.Nodup.map_on ?_ hd.children
      intro w hw u hu h
      obtain ⟨p, hpp, rfl⟩ := List.mem_map.1 hw
      obtain ⟨q, hqq, rfl⟩ := List.mem_map.1 hu
      exact hinj _ _ ((hd.pots p hpp).names _ (by simp)) ((hd.pots q hqq).names _ (by simp)) h)
  have hfile : ({ vars := List.range' base d.nodes.length, card := C
                  next := (linksFrom base d.nodes).foldl (linkStep (fun w => base + d.place w)) (fun _ => none), pots := l } : NetFile K) =
      NetText.file d num base l := by unfold NetText.file; rw [hC]
  rw [hfile] at hV
  refine ⟨l, by rw [← hC]; exact hl, hV, ?_, ?_, ?_, ?_⟩
  · rfl
  · intro n hn
    show cardOf (recsFrom num base d.nodes) (base + d.place n.name) = _
    obtain ⟨i, hi, rfl⟩ := List.getElem_of_mem hn
    rw [place_getElem hd.names hi, cardOf_recs num d.nodes base i hi]
  · intro n hn
    obtain ⟨i, hi, rfl⟩ := List.getElem_of_mem hn
    rw [place_getElem hd.names hi]
    exact links_next (fun w => base + d.place w) d.nodes base (fun _ => none) i hi (fun _ _ => rfl)
  · have hE := parseTables_each _ l hl
    have hq : ∀ (p : PotText) (q : Parsed K), p ∈ d.pots → potentialDeclaration C (base + d.place p.child) (p.parents.map (fun l => l.map (fun w => base + d.place w)))
        (p.data.map (fun gr => gr.words.map num.value)) = ok (some q) →
        Stored (NetText.file d num base l) (base + d.place p.child) (p.parents.map (fun l => l.map (fun w => base + d.place w)))
          (p.data.map (fun gr => gr.words.map num.value)) q := by
      intro p q hpp hq
      have hS : Sorts ((List.range' base d.nodes.length).filter (fun v => decide (v = base + d.place p.child ∨
            v ∈ ((p.parents.map (fun l => l.map (fun w => base + d.place w))).getD []).reverse)))
          ((base + d.place p.child) :: (p.parents.map (fun l => l.map (fun w => base + d.place w))).getD []) := by
        refine ⟨hsorted.filter _, ?_⟩
        rw [List.perm_ext_iff_of_nodup ((hsorted.filter _).imp (fun h => Nat.ne_of_lt h)) (by rw [hfam]; exact hnodup p hpp)]
        intro v
        simp only [List.mem_filter, decide_eq_true_eq, List.mem_cons, List.mem_reverse]
        constructor
        · exact fun h => h.2
        · exact fun h => ⟨hin p hpp v (List.mem_cons.2 h), h⟩
      obtain ⟨t, h1, h2, h3, h4⟩ := declaration_spec (hdecl p hpp) hS
      rw [hq] at h1
      have hqt := Option.some.inj (Res.ok.inj h1)
      subst hqt
      refine ⟨rfl, rfl, ?_, ?_⟩
      · rw [← hfile]
        exact h3
      · intro x hx v s hv
        rw [← hfile] at hv hx ⊢
        unfold NetFile.family at hv
        simp only at hv hx ⊢
        unfold NetFile.entry NetFile.family
        simp only
        rw [hv]
        rw [hv] at hS
        exact declaration_value (hdecl p hpp) hS hq x hx
    have hlen : d.pots.length = l.length := by have := hE.length_eq; simpa [NetText.declarations] using this
    show List.Forall₂ _ d.pots l
    rw [List.forall₂_iff_get]
    refine ⟨hlen, fun i h1 h2 => hq _ _ (List.get_mem _ _) ?_⟩
    have := (List.forall₂_iff_get.1 hE).2 i (by simpa [NetText.declarations] using h1) h2
    simpa [NetText.declarations] using this

/-- Nothing is left in the static variables of the parser by an earlier file. -/
structure Statics.Fresh (g : Statics K) : Prop where
  strings : g.strings = []
  doubles : g.doubles = []
  states : g.states = none
  label : g.label = .null
  persistence : g.persistence = none
  vars : g.vars = .null
  parents : g.parents = none
  pots : g.pots = .null
  links : g.links = .null
  posX : g.posX = 100
  posY : g.posY = 100
  nextId : 0 < g.nextId

omit [Field K] [LinearOrder K] [IsStrictOrderedRing K] in
theorem Statics.initial_fresh : (Statics.initial : Statics K).Fresh := ⟨rfl, rfl, rfl, rfl, rfl, rfl, rfl, rfl, rfl, rfl, rfl, Nat.one_pos⟩

/-- the static variables after the action of rule `input` -/
def afterInput (num : Numerals K) (g : Statics K) (ns : List NodeText) (a b : Nat) : Statics K :=
  { g with sizeX := a, sizeY := b, nextId := g.nextId + ns.length, vars := .live (recsFrom num g.nextId ns), pots := .freed
           links := if linksFrom g.nextId ns = [] then .null else .freed
           label := if ns.any (fun n => n.label.isSome) then .freed else .null }

theorem finishInput_eq (ptr : Nat) {d : NetText} {num : Numerals K} (hd : d.Sensible num.value num.int) (hs : ∀ n ∈ d.nodes, n.name.length ≤ 40) {g : Statics K}
    {base : Nat} (hv : g.vars = .live (recsFrom num base d.nodes)) {l : List (Parsed K)} (hpt : g.pots = .live l)
    (hlk : g.links = Ptr.null.add (linksFrom base d.nodes)) (hV : (NetText.file d num base l).Valid) (r : List Lexeme) :
    ∃ m, NetFile.build ptr (NetText.file d num base l) = ok (some m) ∧ finishInput ptr ⟨g, r⟩ =
      ok (some { model := m, file := NetText.file d num base l, nodes := recsFrom num base d.nodes, sizeX := g.sizeX, sizeY := g.sizeY },
        ⟨{ g with links := g.links.free, pots := .freed }, r⟩) := by
  obtain ⟨m, hm, _⟩ := build_spec ptr hV
  refine ⟨m, hm, ?_⟩
  unfold finishInput
  rw [run_some (run_vars hv r), run_some (run_statics _)]
  simp only [hpt]
  have hV' : ({ vars := (recsFrom num base d.nodes).map (fun v => v.id), card := cardOf (recsFrom num base d.nodes), next := fun _ => none, pots := l } : NetFile K).Valid := by
    rw [recs_ids]
    exact ⟨⟨hV.sorted, hV.ids, hV.states, hV.tables, hV.child, hV.parents, hV.distinct, hV.shape⟩, hV.nonneg⟩
  obtain ⟨gr, var, hg, _, _⟩ := toGraph_eq hV'.toFits
  have hl : allLinks (recsFrom num base d.nodes) g.links = ok (some (NetText.file d num base l).next) := by
    rw [hlk]
    unfold Ptr.add allLinks
    split
    · next h => split at h <;> simp_all [NetText.file]
    · next l' h =>
      split at h
      · cases h
      · have : l' = linksFrom base d.nodes := by
          have := Ptr.live.inj h
          simpa [Ptr.list] using this.symm
        subst this
        refine linkVars_eq _ (fun w => base + d.place w) _ _ ?_
        intro e he
        obtain ⟨j, hj, h1, h2⟩ := mem_links d.nodes base he
        obtain ⟨h3, h4⟩ := hd.next _ (List.getElem_mem hj) _ h2
        refine ⟨searchVar_recs num d.nodes base hs h3, ?_⟩
        rw [h1, cardOf_recs num d.nodes base j hj, card_recs num h3, h4]
    · next h => split at h <;> cases h
  rw [hg, hl]
  simp only
  have hfile : ({ vars := (recsFrom num base d.nodes).map (fun v => v.id), card := cardOf (recsFrom num base d.nodes), next := (NetText.file d num base l).next, pots := l } : NetFile K) =
      NetText.file d num base l := by
    rw [recs_ids]; rfl
  rw [hfile, hm]
  rfl

/-- the body of a file, up to the action of rule `input` -/
theorem body_eq (ptr : Nat) {d : NetText} {num : Numerals K} (hd : d.Sensible num.value num.int) (hs : ∀ n ∈ d.nodes, n.name.length ≤ 40) (hp : d.pots ≠ [])
    (hl : d.nodes.Pairwise (fun a b => a.label ≠ none → b.label ≠ none)) {g : Statics K} (hg : g.Fresh) {r : List Lexeme} (hr : ∀ k, r.head? ≠ some (.key k))
    {fuel : Nat} (hf : (d.nodes.flatMap NodeText.lexemes ++ d.pots.flatMap PotText.lexemes).length < fuel) :
    ∃ m l g', NetFile.build ptr (NetText.file d num g.nextId l) = ok (some m) ∧ (NetText.file d num g.nextId l).Valid ∧
      d.Describes num.value g.nextId (NetText.file d num g.nextId l) ∧
      nodes num fuel ⟨g, d.nodes.flatMap NodeText.lexemes ++ (d.pots.flatMap PotText.lexemes ++ r)⟩ =
        ok (some (), ⟨afterNodes num g d.nodes, d.pots.flatMap PotText.lexemes ++ r⟩) ∧
      potentials num fuel ⟨afterNodes num g d.nodes, d.pots.flatMap PotText.lexemes ++ r⟩ = ok (some (), ⟨g', r⟩) ∧
      ∀ r', finishInput ptr ⟨g', r'⟩ = ok (some { model := m, file := NetText.file d num g.nextId l, nodes := recsFrom num g.nextId d.nodes, sizeX := g.sizeX, sizeY := g.sizeY },
        ⟨afterInput num g d.nodes g.sizeX g.sizeY, r'⟩) := by
  obtain ⟨l, h1, h2, h3⟩ := describes hd hp hg.nextId
  rw [List.length_append] at hf
  have hpl : d.pots.length ≤ (d.pots.flatMap PotText.lexemes).length := by
    induction d.pots with
    | nil => simp
    | cons p ps ih =>
      rw [List.flatMap_cons, List.length_append, List.length_cons]
      have : 1 ≤ p.lexemes.length := by simp [PotText.lexemes]
      omega
  have hrecs : recsFrom num g.nextId d.nodes ≠ [] := by
    intro h
    have := recs_length num d.nodes g.nextId
    rw [h] at this
    exact hd.nonempty (List.length_eq_zero_iff.1 this.symm)
  have hvars : (afterNodes num g d.nodes).vars = .live (recsFrom num g.nextId d.nodes) := by
    unfold afterNodes
    simp only [hg.vars, Ptr.add]
    rw [if_neg hrecs]
    rfl
  have hlne : l ≠ [] := h2.tables
  have hN := nodes_eq num (r := d.pots.flatMap PotText.lexemes ++ r) (by
      intro k hk
      cases hps : d.pots with
      | nil => exact absurd hps hp
      | cons p ps =>
        rw [hps, List.flatMap_cons] at hk
        simp only [PotText.lexemes, List.cons_append, List.head?_cons] at hk
        exact (Lexeme.key.inj (Option.some.inj hk)).symm) d.nodes fuel g ⟨hg.strings, hg.states, hg.persistence, hg.posX, hg.posY, by rw [hg.vars]; simp, by rw [hg.links]; simp⟩
    hd.nodes (Or.inl hg.label) hl (fun h => absurd h hd.nonempty) (by omega)
  have hP := potentials_eq num (fun w => g.nextId + d.place w) hr d.pots fuel (afterNodes num g d.nodes) l (by omega)
    (by
      intro p hpp
      have hsp := hd.pots p hpp
      refine ⟨fun w hw => searchVar_recs num d.nodes g.nextId hs (hsp.names w hw), fun h => hsp.parents [] h rfl, ?_⟩
      intro gr hgr h0
      have h4 := (hsp.numbers gr hgr).1
      rw [h0, List.length_nil, Nat.le_zero, List.prod_eq_zero_iff, List.mem_map] at h4
      obtain ⟨w, hw, h5⟩ := h4
      have hx := hsp.names w hw
      rw [card_place hx, List.length_eq_zero_iff] at h5
      exact (hd.nodes _ (List.getElem_mem (place_lt hx))).states h5) h1 hvars
    (by unfold afterNodes; simp [hg.pots]) hg.parents hg.doubles
  obtain ⟨G, hG⟩ : ∃ G : Statics K, G = { afterNodes num g d.nodes with pots := (afterNodes num g d.nodes).pots.add l } := ⟨_, rfl⟩
  rw [← hG] at hP
  have hm := fun r' => finishInput_eq ptr hd hs (g := G) (base := g.nextId) (by rw [hG]; exact hvars) (l := l)
    (by rw [hG]; simp only [afterNodes, hg.pots, Ptr.add]; rw [if_neg hlne]; rfl) (by rw [hG]; simp only [afterNodes, hg.links]) h2 r'
  obtain ⟨m, hb, _⟩ := hm []
  refine ⟨m, l, G, hb, h2, h3, hN, hP, fun r' => ?_⟩
  obtain ⟨m', hb', hF⟩ := hm r'
  rw [hb] at hb'
  have : m = m' := Option.some.inj (Res.ok.inj hb')
  subst this
  rw [hF, hG]
  congr 3
  unfold afterNodes afterInput
  simp only [hg.vars, hg.links, hg.label, Ptr.add, if_neg hrecs]
  have hx : (if linksFrom g.nextId d.nodes = [] then Ptr.null else Ptr.live (Ptr.null.list ++ linksFrom g.nextId d.nodes)).free =
      (if linksFrom g.nextId d.nodes = [] then Ptr.null else Ptr.freed) := by split <;> rfl
  rw [hx]
  rfl

/-- reading a whole description -/
theorem input_eq (ptr : Nat) {d : NetText} {num : Numerals K} (hd : d.Sensible num.value num.int) (hs : ∀ n ∈ d.nodes, n.name.length ≤ 40) (hp : d.pots ≠ [])
    (hl : d.nodes.Pairwise (fun a b => a.label ≠ none → b.label ≠ none)) {g : Statics K} (hg : g.Fresh) {fuel : Nat} (hf : d.lexemes.length < fuel) :
    ∃ m l a b, NetFile.build ptr (NetText.file d num g.nextId l) = ok (some m) ∧ (NetText.file d num g.nextId l).Valid ∧
      d.Describes num.value g.nextId (NetText.file d num g.nextId l) ∧ (a, b) = sizesAfter num d.frame.fields (g.sizeX, g.sizeY) ∧
      input num ptr fuel ⟨g, d.lexemes⟩ = ok (some { model := m, file := NetText.file d num g.nextId l, nodes := recsFrom num g.nextId d.nodes, sizeX := a, sizeY := b },
        ⟨afterInput num g d.nodes a b, []⟩) := by
  have hfields : ∀ fs : List NetField, fs.length ≤ (fs.flatMap NetField.lexemes).length := by
    intro fs
    induction fs with
    | nil => simp
    | cons f fs ih =>
      rw [List.flatMap_cons, List.length_append, List.length_cons]
      have : 1 ≤ f.lexemes.length := by cases f <;> simp [NetField.lexemes]
      omega
  obtain ⟨n0, ns0, hn0⟩ : ∃ n ns, d.nodes = n :: ns := by
    cases h : d.nodes with
    | nil => exact absurd h hd.nonempty
    | cons n ns => exact ⟨n, ns, rfl⟩
  have hhead : ∀ r, (d.nodes.flatMap NodeText.lexemes ++ r).head? = some (.key (if n0.discrete then .discrete else .node)) := by
    intro r
    rw [hn0, List.flatMap_cons, List.append_assoc, node_head]
  unfold NetText.lexemes at hf ⊢
  unfold input
  cases hfr : d.frame with
  | bare =>
    rw [hfr] at hf
    simp only at hf ⊢
    obtain ⟨m, l, g', h1, h2, h3, h4, h5, h6⟩ := body_eq ptr hd hs hp hl hg (r := []) (by simp) hf
    refine ⟨m, l, g.sizeX, g.sizeY, h1, h2, h3, rfl, ?_⟩
    rw [List.append_nil] at h4 h5
    rw [run_some (run_peek _)]
    simp only [hhead]
    have e1 : (if n0.discrete = true then Keyword.discrete else Keyword.node) = .discrete ∨ (if n0.discrete = true then Keyword.discrete else Keyword.node) = .node := by
      cases n0.discrete <;> simp
    have key : (do nodes num fuel; potentials num fuel; let last ← readLookahead; let m ← finishInput ptr; if last then return m else abort : Parse K (ReadModel K))
        ⟨g, d.nodes.flatMap NodeText.lexemes ++ d.pots.flatMap PotText.lexemes⟩ =
        ok (some { model := m, file := NetText.file d num g.nextId l, nodes := recsFrom num g.nextId d.nodes, sizeX := g.sizeX, sizeY := g.sizeY },
        ⟨afterInput num g d.nodes g.sizeX g.sizeY, []⟩) := by
      rw [run_some h4, run_some h5]
      rw [run_some (a := true) (s' := ⟨g', []⟩) rfl, run_some (h6 [])]
      rfl
    rcases e1 with e1 | e1 <;> rw [e1] <;> exact key
  | net fs =>
    rw [hfr] at hf
    simp only [List.cons_append, List.nil_append, List.append_assoc, List.length_cons, List.length_append] at hf ⊢
    have := hfields fs
    obtain ⟨a, b, hab, hpar⟩ := parameters_eq num fs (.mark '}' :: (d.nodes.flatMap NodeText.lexemes ++ d.pots.flatMap PotText.lexemes)) (by simp) (by simp) fuel g (by omega)
      (by have := hd.sizes; rw [hfr] at this; exact this)
    have hg' : ({ g with sizeX := a, sizeY := b } : Statics K).Fresh := ⟨hg.strings, hg.doubles, hg.states, hg.label, hg.persistence, hg.vars, hg.parents, hg.pots,
      hg.links, hg.posX, hg.posY, hg.nextId⟩
    obtain ⟨m, l, g', h1, h2, h3, h4, h5, h6⟩ := body_eq ptr hd hs hp hl hg' (r := []) (by simp) (fuel := fuel) (by rw [List.length_append]; omega)
    refine ⟨m, l, a, b, h1, h2, h3, hab, ?_⟩
    rw [List.append_nil] at h4 h5
    rw [run_some (run_peek _)]
    simp only [List.head?_cons]
    refine (run_pos trivial).trans ?_
    rw [run_some (run_expect _ g _), run_some (run_expect _ g _), run_some hpar, run_some (run_expect _ _ _), run_some h4, run_some h5]
    rw [run_some (a := true) (s' := ⟨g', []⟩) rfl, run_some (h6 [])]
    rfl
  | klass n fs =>
    rw [hfr] at hf
    simp only [List.cons_append, List.nil_append, List.append_assoc, List.length_cons, List.length_append] at hf ⊢
    have := hfields fs
    have hh := hhead (d.pots.flatMap PotText.lexemes ++ [.mark '}'])
    obtain ⟨a, b, hab, hpar⟩ := parameters_eq num fs (d.nodes.flatMap NodeText.lexemes ++ (d.pots.flatMap PotText.lexemes ++ [.mark '}'])) (by rw [hh]; simp)
      (by rw [hh]; cases n0.discrete <;> simp) fuel g (by omega)
      (by have := hd.sizes; rw [hfr] at this; exact this)
    have hg' : ({ g with sizeX := a, sizeY := b } : Statics K).Fresh := ⟨hg.strings, hg.doubles, hg.states, hg.label, hg.persistence, hg.vars, hg.parents, hg.pots,
      hg.links, hg.posX, hg.posY, hg.nextId⟩
    obtain ⟨m, l, g', h1, h2, h3, h4, h5, h6⟩ := body_eq ptr hd hs hp hl hg' (r := [.mark '}']) (by simp) (fuel := fuel) (by rw [List.length_append]; omega)
    refine ⟨m, l, a, b, h1, h2, h3, hab, ?_⟩
    rw [run_some (run_peek _)]
    simp only [List.head?_cons]
    rw [run_some (run_expect _ g _), run_some (run_name _ g _), run_some (run_expect _ g _), run_some hpar, run_some h4, run_some h5, run_some (run_expect _ _ _),
      run_some (h6 [])]
    rfl

omit [IsStrictOrderedRing K] in
/-- If reading the nodes uses memory that was freed, then so does reading the file. -/
theorem input_ub (ptr : Nat) {d : NetText} {num : Numerals K} (hn : d.nodes ≠ []) (hsz : ∀ x y, .size x y ∈ d.frame.fields → (num.int x).isSome ∧ (num.int y).isSome)
    {g : Statics K} {fuel : Nat} (hf : d.lexemes.length < fuel)
    (h : ∀ a b r, nodes num fuel ⟨{ g with sizeX := a, sizeY := b }, d.nodes.flatMap NodeText.lexemes ++ r⟩ = ub) :
    input num ptr fuel ⟨g, d.lexemes⟩ = ub := by
  have hfields : ∀ fs : List NetField, fs.length ≤ (fs.flatMap NetField.lexemes).length := by
    intro fs
    induction fs with
    | nil => simp
    | cons f fs ih =>
      rw [List.flatMap_cons, List.length_append, List.length_cons]
      have : 1 ≤ f.lexemes.length := by cases f <;> simp [NetField.lexemes]
      omega
  obtain ⟨n0, ns0, hn0⟩ : ∃ n ns, d.nodes = n :: ns := by
    cases h : d.nodes with
    | nil => exact absurd h hn
    | cons n ns => exact ⟨n, ns, rfl⟩
  have hhead : ∀ r, (d.nodes.flatMap NodeText.lexemes ++ r).head? = some (.key (if n0.discrete then .discrete else .node)) := by
    intro r
    rw [hn0, List.flatMap_cons, List.append_assoc, node_head]
  unfold NetText.lexemes at hf ⊢
  unfold input
  cases hfr : d.frame with
  | bare =>
    rw [hfr] at hf
    simp only at hf ⊢
    rw [run_some (run_peek _)]
    simp only [hhead]
    have e1 : (if n0.discrete = true then Keyword.discrete else Keyword.node) = .discrete ∨ (if n0.discrete = true then Keyword.discrete else Keyword.node) = .node := by
      cases n0.discrete <;> simp
    have key : (do nodes num fuel; potentials num fuel; let last ← readLookahead; let m ← finishInput ptr; if last then return m else abort : Parse K (ReadModel K))
        ⟨g, d.nodes.flatMap NodeText.lexemes ++ d.pots.flatMap PotText.lexemes⟩ = ub := run_ub (h g.sizeX g.sizeY _)
    rcases e1 with e1 | e1 <;> rw [e1] <;> exact key
  | net fs =>
    rw [hfr] at hf
    simp only [List.cons_append, List.nil_append, List.append_assoc, List.length_cons, List.length_append] at hf ⊢
    have := hfields fs
    obtain ⟨a, b, hab, hpar⟩ := parameters_eq num fs (.mark '}' :: (d.nodes.flatMap NodeText.lexemes ++ d.pots.flatMap PotText.lexemes)) (by simp) (by simp) fuel g (by omega)
      (by rw [hfr] at hsz; exact hsz)
    rw [run_some (run_peek _)]
    simp only [List.head?_cons]
    refine (run_pos trivial).trans ?_
    rw [run_some (run_expect _ g _), run_some (run_expect _ g _), run_some hpar, run_some (run_expect _ _ _), run_ub (h a b _)]
  | klass n fs =>
    rw [hfr] at hf
    simp only [List.cons_append, List.nil_append, List.append_assoc, List.length_cons, List.length_append] at hf ⊢
    have := hfields fs
    have hh := hhead (d.pots.flatMap PotText.lexemes ++ [.mark '}'])
    obtain ⟨a, b, hab, hpar⟩ := parameters_eq num fs (d.nodes.flatMap NodeText.lexemes ++ (d.pots.flatMap PotText.lexemes ++ [.mark '}'])) (by rw [hh]; simp)
      (by rw [hh]; cases n0.discrete <;> simp) fuel g (by omega)
      (by rw [hfr] at hsz; exact hsz)
    rw [run_some (run_peek _)]
    simp only [List.head?_cons]
    rw [run_some (run_expect _ g _), run_some (run_name _ g _), run_some (run_expect _ g _), run_some hpar, run_ub (h a b _)]

/-- An unlabelled node after a labelled one: the label of the earlier node, whose memory was freed, is used. -/
theorem input_label_ub (ptr : Nat) {d : NetText} {num : Numerals K} (hd : ∀ n ∈ d.nodes, n.Sensible num.int)
    (hsz : ∀ x y, .size x y ∈ d.frame.fields → (num.int x).isSome ∧ (num.int y).isSome)
    (hl : ¬ d.nodes.Pairwise (fun a b => a.label ≠ none → b.label ≠ none)) {g : Statics K} (hg : g.Fresh) {fuel : Nat} (hf : d.lexemes.length < fuel) :
    input num ptr fuel ⟨g, d.lexemes⟩ = ub := by
  have hsplit : ∀ ns : List NodeText, ¬ ns.Pairwise (fun a b => a.label ≠ none → b.label ≠ none) →
      ∃ pre n post, ns = pre ++ n :: post ∧ pre.Pairwise (fun a b => a.label ≠ none → b.label ≠ none) ∧ n.label = none ∧ pre.any (fun n => n.label.isSome) = true := by
    intro ns
    induction ns using List.reverseRecOn with
    | nil => intro h; exact absurd List.Pairwise.nil h
    | append_singleton ns n ih =>
      intro h
      by_cases h' : ns.Pairwise (fun a b => a.label ≠ none → b.label ≠ none)
      · rw [List.pairwise_append] at h
        simp only [h', List.pairwise_singleton, true_and, List.mem_singleton, forall_eq] at h
        push Not at h
        obtain ⟨a, ha, h1, h2⟩ := h
        exact ⟨ns, n, [], rfl, h', h2, List.any_eq_true.2 ⟨a, ha, Option.isSome_iff_ne_none.2 h1⟩⟩
      · obtain ⟨pre, m, post, h1, h2⟩ := ih h'
        exact ⟨pre, m, post ++ [n], by rw [h1]; simp, h2⟩
  obtain ⟨pre, n, post, hns, hp, hnl, hany⟩ := hsplit d.nodes hl
  have hlen : (d.nodes.flatMap NodeText.lexemes).length ≤ d.lexemes.length := by
    unfold NetText.lexemes
    cases d.frame <;> simp <;> omega
  refine input_ub ptr (by rw [hns]; simp) hsz hf ?_
  intro a b r
  have hfl : ∀ m ∈ d.nodes, m.fields.length + 3 + d.nodes.length < fuel := fun m hm => by have := nodes_length hm; omega
  have hl3 : d.nodes.length = pre.length + post.length + 1 := by rw [hns]; simp; omega
  have hn0 := hfl n (by rw [hns]; simp)
  obtain ⟨f, rfl⟩ : ∃ f, fuel = pre.length + (f + 1) := ⟨fuel - pre.length - 1, by omega⟩
  rw [hns, List.flatMap_append, List.flatMap_cons, List.append_assoc, List.append_assoc]
  rw [nodes_prefix num _ (f + 1) pre { g with sizeX := a, sizeY := b } ⟨hg.strings, hg.states, hg.persistence, hg.posX, hg.posY, by rw [hg.vars]; simp, by rw [hg.links]; simp⟩
    (fun m hm => hd m (by rw [hns]; simp [hm])) (Or.inl hg.label) hp (fun m hm => by have := hfl m (by rw [hns]; simp [hm]); omega)]
  refine nodes_ub (fuel := f) (g := afterNodes num { g with sizeX := a, sizeY := b } pre) num (hd n (by rw [hns]; simp)) hg.strings (Or.inl ⟨?_, hnl⟩) (by omega) _
  unfold afterNodes
  rw [if_pos hany]

/-- A file after another one was read: the list of variables, whose memory was freed, is used. -/
theorem input_again_ub (ptr : Nat) {d : NetText} {num : Numerals K} (hn : d.nodes ≠ []) (hd : ∀ n ∈ d.nodes, n.Sensible num.int)
    (hsz : ∀ x y, .size x y ∈ d.frame.fields → (num.int x).isSome ∧ (num.int y).isSome) {g : Statics K} (hg : g.strings = []) (hv : g.vars = .freed)
    (hlab : g.label = .null ∨ g.label = .freed) {fuel : Nat} (hf : d.lexemes.length < fuel) :
    input num ptr fuel ⟨g, d.lexemes⟩ = ub := by
  have hlen : (d.nodes.flatMap NodeText.lexemes).length ≤ d.lexemes.length := by
    unfold NetText.lexemes
    cases d.frame <;> simp <;> omega
  refine input_ub ptr hn hsz hf ?_
  intro a b r
  obtain ⟨n, ns, hns⟩ : ∃ n ns, d.nodes = n :: ns := by
    cases h : d.nodes with
    | nil => exact absurd h hn
    | cons n ns => exact ⟨n, ns, rfl⟩
  have := nodes_length (n := n) (ns := d.nodes) (by rw [hns]; simp)
  obtain ⟨f, rfl⟩ : ∃ f, fuel = f + 1 := ⟨fuel - 1, by omega⟩
  rw [hns, List.flatMap_cons, List.append_assoc]
  exact nodes_ub (fuel := f) (g := { g with sizeX := a, sizeY := b }) num (hd n (by rw [hns]; simp)) hg (Or.inr ⟨hlab, hv⟩) (by omega) _

omit [IsStrictOrderedRing K] in
/-- Nodes but no potentials: the list of potentials, a null pointer, is read. -/
theorem input_bare_ub (ptr : Nat) {d : NetText} {num : Numerals K} (hd : ∀ n ∈ d.nodes, n.Sensible num.int)
    (hsz : ∀ x y, .size x y ∈ d.frame.fields → (num.int x).isSome ∧ (num.int y).isSome) (hn : d.nodes ≠ []) (hp : d.pots = [])
    (hl : d.nodes.Pairwise (fun a b => a.label ≠ none → b.label ≠ none)) {g : Statics K} (hg : g.Fresh) {fuel : Nat} (hf : d.lexemes.length < fuel) :
    input num ptr fuel ⟨g, d.lexemes⟩ = ub := by
  have hfields : ∀ fs : List NetField, fs.length ≤ (fs.flatMap NetField.lexemes).length := by
    intro fs
    induction fs with
    | nil => simp
    | cons f fs ih =>
      rw [List.flatMap_cons, List.length_append, List.length_cons]
      have : 1 ≤ f.lexemes.length := by cases f <;> simp [NetField.lexemes]
      omega
  obtain ⟨n0, ns0, hn0⟩ : ∃ n ns, d.nodes = n :: ns := by
    cases h : d.nodes with
    | nil => exact absurd h hn
    | cons n ns => exact ⟨n, ns, rfl⟩
  have hhead : ∀ r, (d.nodes.flatMap NodeText.lexemes ++ r).head? = some (.key (if n0.discrete then .discrete else .node)) := by
    intro r
    rw [hn0, List.flatMap_cons, List.append_assoc, node_head]
  have hpot : ∀ (g : Statics K) (r : List Lexeme), r = [] ∨ r = [.mark '}'] → potentials num fuel ⟨g, r⟩ = ok (some (), ⟨g, r⟩) := by
    intro g r hr
    obtain ⟨f, rfl⟩ : ∃ f, fuel = f + 1 := ⟨fuel - 1, by omega⟩
    unfold potentials
    rw [run_some (run_peek _)]
    rcases hr with rfl | rfl <;> rfl
  have hfin : ∀ (a b : Nat) (r : List Lexeme), finishInput ptr ⟨afterNodes num { g with sizeX := a, sizeY := b } d.nodes, r⟩ = ub := by
    intro a b r
    have hrecs : recsFrom num g.nextId d.nodes ≠ [] := by
      intro h
      have := recs_length num d.nodes g.nextId
      rw [h] at this
      exact hn (List.length_eq_zero_iff.1 this.symm)
    have hvars : (afterNodes num { g with sizeX := a, sizeY := b } d.nodes).vars = .live (recsFrom num g.nextId d.nodes) := by
      unfold afterNodes
      simp only [hg.vars, Ptr.add]
      rw [if_neg hrecs]
      rfl
    unfold finishInput
    rw [run_some (run_vars hvars r), run_some (run_statics _)]
    have : (afterNodes num { g with sizeX := a, sizeY := b } d.nodes).pots = .null := hg.pots
    simp only [this]
    rfl
  have hN : ∀ (a b : Nat) (r : List Lexeme), r = [] ∨ r = [.mark '}'] → (d.nodes.flatMap NodeText.lexemes).length < fuel →
      nodes num fuel ⟨{ g with sizeX := a, sizeY := b }, d.nodes.flatMap NodeText.lexemes ++ r⟩ =
      ok (some (), ⟨afterNodes num { g with sizeX := a, sizeY := b } d.nodes, r⟩) := by
    intro a b r hr hf
    exact nodes_eq num (r := r) (by rintro k hk; rcases hr with rfl | rfl <;> simp at hk) d.nodes fuel { g with sizeX := a, sizeY := b }
      ⟨hg.strings, hg.states, hg.persistence, hg.posX, hg.posY, by rw [hg.vars]; simp, by rw [hg.links]; simp⟩ hd (Or.inl hg.label) hl (fun h => absurd h hn) hf
  unfold NetText.lexemes at hf ⊢
  unfold input
  rw [hp] at hf ⊢
  cases hfr : d.frame with
  | bare =>
    rw [hfr] at hf
    simp only [List.flatMap_nil, List.append_nil] at hf ⊢
    have h4 := hN g.sizeX g.sizeY [] (Or.inl rfl) (by omega)
    have hh := hhead []
    rw [List.append_nil] at h4 hh
    rw [run_some (run_peek _)]
    simp only [hh]
    have e1 : (if n0.discrete = true then Keyword.discrete else Keyword.node) = .discrete ∨ (if n0.discrete = true then Keyword.discrete else Keyword.node) = .node := by
      cases n0.discrete <;> simp
    have key : (do nodes num fuel; potentials num fuel; let last ← readLookahead; let m ← finishInput ptr; if last then return m else abort : Parse K (ReadModel K))
        ⟨g, d.nodes.flatMap NodeText.lexemes⟩ = ub := by
      rw [run_some h4, run_some (hpot _ _ (Or.inl rfl))]
      rw [run_some (a := true) (s' := ⟨afterNodes num g d.nodes, []⟩) rfl]
      exact run_ub (hfin g.sizeX g.sizeY [])
    rcases e1 with e1 | e1 <;> rw [e1] <;> exact key
  | net fs =>
    rw [hfr] at hf
    simp only [List.cons_append, List.nil_append, List.append_assoc, List.length_cons, List.length_append, List.flatMap_nil, List.append_nil] at hf ⊢
    have := hfields fs
    obtain ⟨a, b, hab, hpar⟩ := parameters_eq num fs (.mark '}' :: (d.nodes.flatMap NodeText.lexemes)) (by simp) (by simp) fuel g (by omega)
      (by rw [hfr] at hsz; exact hsz)
    have h4 := hN a b [] (Or.inl rfl) (by omega)
    rw [List.append_nil] at h4
    rw [run_some (run_peek _)]
    simp only [List.head?_cons]
    refine (run_pos trivial).trans ?_
    rw [run_some (run_expect _ g _), run_some (run_expect _ g _), run_some hpar, run_some (run_expect _ _ _), run_some h4, run_some (hpot _ _ (Or.inl rfl))]
    rw [run_some (a := true) (s' := ⟨afterNodes num { g with sizeX := a, sizeY := b } d.nodes, []⟩) rfl]
    exact run_ub (hfin a b [])
  | klass n fs =>
    rw [hfr] at hf
    simp only [List.cons_append, List.nil_append, List.append_assoc, List.length_cons, List.length_append, List.flatMap_nil] at hf ⊢
    have := hfields fs
    have hh := hhead [.mark '}']
    obtain ⟨a, b, hab, hpar⟩ := parameters_eq num fs (d.nodes.flatMap NodeText.lexemes ++ [.mark '}']) (by rw [hh]; simp)
      (by rw [hh]; cases n0.discrete <;> simp) fuel g (by omega)
      (by rw [hfr] at hsz; exact hsz)
    have h4 := hN a b [.mark '}'] (Or.inr rfl) (by omega)
    rw [run_some (run_peek _)]
    simp only [List.head?_cons]
    rw [run_some (run_expect _ g _), run_some (run_name _ g _), run_some (run_expect _ g _), run_some hpar, run_some h4, run_some (hpot _ _ (Or.inr rfl)),
      run_some (run_expect _ _ _)]
    exact run_ub (hfin a b [])

end Nip
