import Verif.HuginNodes
import Verif.HuginTables
import Verif.BuildLemmas
import Verif.JointLemmas

/-! # Reading the potentials of a network file -/

namespace Nip

open Res Spec Parse

variable {K : Type}

theorem cutText_short {w : List Char} (h : w.length ≤ 40) : cutText w = w := List.take_of_length_le h

theorem recs_length (num : Numerals K) (ns : List NodeText) : ∀ i, (recsFrom num i ns).length = ns.length := by
  induction ns with
  | nil => intro i; rfl
  | cons n ns ih => intro i; simp [recsFrom, ih]

theorem recs_getElem (num : Numerals K) (ns : List NodeText) : ∀ (i j : Nat) (h : j < ns.length),
    (recsFrom num i ns)[j]? = some (nodeRec num (i + j) ns[j]) := by
  induction ns with
  | nil => intro i j h; simp at h
  | cons n ns ih =>
    intro i j h
    cases j with
    | zero => rfl
    | succ j =>
      rw [recsFrom, List.getElem?_cons_succ, ih (i + 1) j (by simpa using h)]
      simp only [List.getElem_cons_succ]
      rw [show i + 1 + j = i + (j + 1) by omega]

theorem recs_ids (num : Numerals K) (ns : List NodeText) : ∀ i, (recsFrom num i ns).map (fun v => v.id) = List.range' i ns.length := by
  induction ns with
  | nil => intro i; rfl
  | cons n ns ih =>
    intro i
    rw [recsFrom, List.map_cons, ih, List.length_cons, List.range'_succ]
    rfl

theorem searchVar_recs (num : Numerals K) {w : List Char} (ns : List NodeText) : ∀ (i : Nat), (∀ n ∈ ns, n.name.length ≤ 40) →
    (∃ n ∈ ns, n.name = w) → searchVar (recsFrom num i ns) w = some (i + ns.findIdx (fun n => n.name == w)) := by
  induction ns with
  | nil => intro i _ ⟨n, hn, _⟩; simp at hn
  | cons n ns ih =>
    intro i hl hw
    have hs : (nodeRec num i n).symbol = n.name := cutText_short (hl n (by simp))
    unfold searchVar
    rw [recsFrom, List.find?_cons, List.findIdx_cons, hs]
    by_cases h : n.name = w
    · simp [h, nodeRec]
    · have hb : (n.name == w) = false := by simpa using h
      simp only [hb, cond_false]
      have := ih (i + 1) (fun k hk => hl k (by simp [hk])) (by
        obtain ⟨k, hk, hkw⟩ := hw
        rcases List.mem_cons.1 hk with rfl | hk
        · exact absurd hkw h
        · exact ⟨k, hk, hkw⟩)
      unfold searchVar at this
      rw [this]
      congr 1
      omega

theorem cardOf_recs (num : Numerals K) (ns : List NodeText) : ∀ (i j : Nat) (h : j < ns.length),
    cardOf (recsFrom num i ns) (i + j) = ns[j].states.length := by
  induction ns with
  | nil => intro i j h; simp at h
  | cons n ns ih =>
    intro i j h
    unfold cardOf
    rw [recsFrom, List.find?_cons]
    cases j with
    | zero => simp [nodeRec]
    | succ j =>
      have hb : ((nodeRec num i n).id == i + (j + 1)) = false := by simp [nodeRec]
      simp only [hb]
      have := ih (i + 1) j (by simpa using h)
      unfold cardOf at this
      rw [show i + (j + 1) = i + 1 + j by omega, this]
      rfl

theorem place_lt {d : NetText} {w : List Char} (h : ∃ n ∈ d.nodes, n.name = w) : d.place w < d.nodes.length := by
  unfold NetText.place
  rw [List.findIdx_lt_length]
  obtain ⟨n, hn, hw⟩ := h
  exact ⟨n, hn, by simpa using hw⟩

theorem place_name {d : NetText} {w : List Char} (h : ∃ n ∈ d.nodes, n.name = w) : (d.nodes[d.place w]'(place_lt h)).name = w := by
  have := List.findIdx_getElem (w := (show d.nodes.findIdx (fun n => n.name == w) < d.nodes.length from place_lt h))
  exact beq_iff_eq.1 this

theorem place_getElem {d : NetText} (hn : (d.nodes.map (fun n => n.name)).Nodup) {i : Nat} (hi : i < d.nodes.length) :
    d.place d.nodes[i].name = i := by
  have h : ∃ n ∈ d.nodes, n.name = d.nodes[i].name := ⟨_, List.getElem_mem hi, rfl⟩
  have h1 := place_name h
  have := (List.Nodup.getElem_inj_iff hn (i := d.place d.nodes[i].name) (j := i) (hi := by simpa using place_lt h) (hj := by simpa using hi)).1 (by
    simpa using h1)
  exact this

theorem card_place {d : NetText} {w : List Char} (h : ∃ n ∈ d.nodes, n.name = w) : d.card w = (d.nodes[d.place w]'(place_lt h)).states.length := by
  unfold NetText.card
  have : d.nodes.find? (fun n => n.name == w) = some (d.nodes[d.place w]'(place_lt h)) := by
    rw [List.find?_eq_some_iff_getElem]
    refine ⟨by simpa using place_name h, d.place w, place_lt h, rfl, ?_⟩
    intro j hj
    have := List.not_of_lt_findIdx (show j < d.nodes.findIdx (fun n => n.name == w) from hj)
    simpa using this
  rw [this]
  rfl

theorem card_recs (num : Numerals K) {d : NetText} {w : List Char} (h : ∃ n ∈ d.nodes, n.name = w) (i : Nat) :
    cardOf (recsFrom num i d.nodes) (i + d.place w) = d.card w := by
  rw [cardOf_recs num d.nodes i _ (place_lt h), card_place h]

theorem symbolsFrom_eq (recs : List NodeRec) (ι : List Char → Nat) (r : List Lexeme) (ws : List (List Char)) : ∀ g : Statics K,
    (∀ w ∈ ws, searchVar recs w = some (ι w)) →
    symbolsFrom recs (ws.map Lexeme.name ++ .mark ')' :: r) g =
      ok (some (), ⟨{ g with parents := if ws = [] then g.parents else some ((ws.map ι).reverse ++ g.parents.getD []) }, .mark ')' :: r⟩) := by
  induction ws with
  | nil => intro g _; rfl
  | cons w ws ih =>
    intro g h
    rw [List.map_cons, List.cons_append, symbolsFrom, h w (by simp)]
    simp only
    rw [ih _ (fun u hu => h u (by simp [hu]))]
    simp only [reduceCtorEq, if_false, Option.getD_some]
    congr 4
    split
    · next h0 => simp [h0]
    · simp

theorem dataList_eq (num : Numerals K) (gr : Grouped) (hw : gr.words ≠ []) (g : Statics K) (hg : g.doubles = []) (r : List Lexeme) :
    dataList num ⟨g, .key .data :: .mark '=' :: .mark '(' :: (gr.lexemes ++ .mark ')' :: .mark ';' :: r)⟩ = ok (some (gr.words.map num.value), ⟨g, r⟩) := by
  unfold dataList
  rw [run_some (run_expect _ g _), run_some (run_expect _ g _), run_some (run_expect _ g _), run_some (numbers_grouped num gr g _),
    run_some (run_expect _ _ _), run_some (run_expect _ _ _), run_some (run_statics _)]
  simp only [hg, List.nil_append]
  generalize hx : gr.words.map num.value = x
  cases x with
  | nil => simp at hx; exact absurd hx hw
  | cons a x =>
    simp only
    rw [run_some (run_assign _ _), run_pure]
    simp only [← hg]

variable [Field K] [LinearOrder K]

theorem addPotential_eq (q : Parsed K) (g : Statics K) (hg : g.pots ≠ .freed) (r : List Lexeme) :
    addPotential q ⟨g, r⟩ = ok (some (), ⟨{ g with pots := g.pots.add [q] }, r⟩) := by
  unfold addPotential
  rw [run_some (run_statics _)]
  cases h : g.pots with
  | freed => exact absurd h hg
  | null => simp only [h]; rfl
  | live l => simp only [h]; rfl

theorem run_vars {g : Statics K} {recs : List NodeRec} (h : g.vars = .live recs) (r : List Lexeme) : theVars ⟨g, r⟩ = ok (some recs, ⟨g, r⟩) := by
  unfold theVars
  rw [run_some (run_statics _)]
  simp only [h]
  rfl

theorem finishPotential_eq {g : Statics K} {recs : List NodeRec} (hv : g.vars = .live recs) (hpt : g.pots ≠ .freed) {c : Nat} {ps : Option (List Nat)}
    (hps : ps ≠ some []) (hg : g.parents = ps.map List.reverse) {data : Option (List K)} {q : Parsed K}
    (hq : potentialDeclaration (cardOf recs) c ps data = ok (some q)) (r : List Lexeme) :
    finishPotential (some c) ps.isSome data ⟨g, r⟩ = ok (some (), ⟨{ g with pots := g.pots.add [q], parents := none }, r⟩) := by
  unfold finishPotential
  rw [run_some (run_vars hv r), run_some (run_statics _)]
  have h1 : ¬ (ps.isSome = true ∧ g.parents.getD [] = []) := by
    rintro ⟨h1, h2⟩
    cases ps with
    | none => simp at h1
    | some l =>
      rw [hg] at h2
      simp only [Option.map_some, Option.getD_some, List.reverse_eq_nil_iff] at h2
      exact hps (by rw [h2])
  have h2 : (if ps.isSome = true then some (g.parents.getD []).reverse else none) = ps := by
    rw [hg]
    cases ps <;> simp
  rw [if_neg h1]
  simp only
  rw [h2, hq]
  rw [run_some (a := some q) (s' := ⟨g, r⟩) rfl]
  simp only
  rw [run_some (addPotential_eq q g hpt r)]
  cases ps with
  | some l => rfl
  | none =>
    simp only [Option.map_none] at hg
    simp only [Option.isSome_none, Bool.false_eq_true, if_false]
    rw [run_pure, ← hg]

/-- a potential -/
theorem potentialRule_eq (num : Numerals K) {recs : List NodeRec} (ι : List Char → Nat) (p : PotText)
    (hn : ∀ w ∈ p.child :: p.parents.getD [], searchVar recs w = some (ι w)) (hp : p.parents ≠ some []) (hd : ∀ gr, p.data = some gr → gr.words ≠ [])
    {q : Parsed K} (hq : potentialDeclaration (cardOf recs) (ι p.child) (p.parents.map (fun l => l.map ι)) (p.data.map (fun gr => gr.words.map num.value)) =
      ok (some q)) {g : Statics K} (hv : g.vars = .live recs) (hpt : g.pots ≠ .freed) (hg : g.parents = none) (hgd : g.doubles = []) (r : List Lexeme) :
    potentialRule num ⟨g, p.lexemes ++ r⟩ = ok (some (), ⟨{ g with pots := g.pots.add [q] }, r⟩) := by
  obtain ⟨c, ps, data⟩ := p
  have hc := hn c (by simp)
  -- what follows the parents
  have htail : ∀ (g' : Statics K), g'.vars = .live recs → g'.pots ≠ .freed → g'.parents = (ps.map (fun l => l.map ι)).map List.reverse → g'.doubles = [] →
      potentialBody num (some (ι c)) ps.isSome
        ⟨g', .mark ')' :: .mark '{' :: (dataLexemes data ++ (.mark '}' :: r))⟩ = ok (some (), ⟨{ g' with pots := g'.pots.add [q], parents := none }, r⟩) := by
    intro g' h1 h2 h3 h4
    rw [← Option.isSome_map (f := fun l : List (List Char) => l.map ι)]
    unfold potentialBody
    rw [run_some (run_expect _ g' _), run_some (run_expect _ g' _), run_some (run_peek _)]
    have hps : (ps.map (fun l => l.map ι)) ≠ some [] := by
      intro h
      cases ps with
      | none => simp at h
      | some l => simp at h; exact hp (by simp [h])
    cases data with
    | none =>
      simp only [dataLexemes, List.nil_append, List.head?_cons]
      rw [run_some (run_expect _ g' _)]
      exact finishPotential_eq h1 h2 hps h3 hq r
    | some gr =>
      simp only [dataLexemes, List.cons_append, List.nil_append, List.append_assoc, List.head?_cons]
      rw [run_some (dataList_eq num gr (hd gr rfl) g' h4 _), run_some (run_expect _ g' _)]
      exact finishPotential_eq h1 h2 hps h3 hq r
  unfold potentialRule PotText.lexemes
  simp only [List.cons_append, List.nil_append, List.append_assoc]
  rw [run_some (run_expect _ g _), run_some (run_expect _ g _), run_some (run_name _ g _), run_some (run_vars hv _), run_some (run_peek _)]
  cases ps with
  | none =>
    have := htail g hv hpt hg hgd
    simp only [parentLexemes, List.nil_append, List.head?_cons]
    rw [hc]
    refine (run_neg (by decide)).trans ?_
    simp only [Option.isSome_none] at this
    have e : { g with pots := g.pots.add [q], parents := none } = { g with pots := g.pots.add [q] } := by rw [← hg]
    rw [e] at this
    exact this
  | some l =>
    simp only [parentLexemes, List.cons_append, List.head?_cons]
    simp only [Option.isSome_some] at htail
    refine (run_pos rfl).trans ?_
    rw [hc, run_some (run_expect _ g _)]
    have hsym : symbols ⟨g, l.map Lexeme.name ++ .mark ')' :: .mark '{' :: (dataLexemes data ++ (.mark '}' :: r))⟩ = ok (some (), ⟨{ g with parents := some (l.map ι).reverse }, .mark ')' :: .mark '{' :: (dataLexemes data ++ (.mark '}' :: r))⟩) := by
      unfold symbols
      refine (run_some (run_vars hv _)).trans ?_
      simp only
      have hl : l ≠ [] := fun h => hp (by rw [h])
      rw [symbolsFrom_eq recs ι _ l g (fun w hw => hn w (by simp [hw])), if_neg hl, hg]
      simp
    rw [run_some hsym]
    have := htail { g with parents := some (l.map ι).reverse } hv hpt rfl hgd
    have e : { g with pots := g.pots.add [q], parents := none } = { g with pots := g.pots.add [q] } := by rw [← hg]
    simp only at this
    rw [e] at this
    exact this

/-- the potentials -/
theorem potentials_eq (num : Numerals K) {recs : List NodeRec} (ι : List Char → Nat) {r : List Lexeme} (hr : ∀ k, r.head? ≠ some (.key k))
    (ps : List PotText) : ∀ (fuel : Nat) (g : Statics K) (l : List (Parsed K)), ps.length < fuel →
    (∀ p ∈ ps, (∀ w ∈ p.child :: p.parents.getD [], searchVar recs w = some (ι w)) ∧ p.parents ≠ some [] ∧ ∀ gr, p.data = some gr → gr.words ≠ []) →
    parseTables (cardOf recs) (ps.map (fun p => ⟨ι p.child, p.parents.map (fun l => l.map ι), p.data.map (fun gr => gr.words.map num.value)⟩)) = ok (some l) →
    g.vars = .live recs → g.pots ≠ .freed → g.parents = none → g.doubles = [] →
    potentials num fuel ⟨g, ps.flatMap PotText.lexemes ++ r⟩ = ok (some (), ⟨{ g with pots := g.pots.add l }, r⟩) := by
  induction ps with
  | nil =>
    intro fuel g l hf _ hl _ _ _ _
    obtain ⟨m, rfl⟩ : ∃ m, fuel = m + 1 := ⟨fuel - 1, by simp at hf; omega⟩
    have : l = [] := by
      simp only [List.map_nil, parseTables] at hl
      exact (Option.some.inj (Res.ok.inj hl)).symm
    subst this
    unfold potentials
    rw [run_some (run_peek _)]
    simp only [List.flatMap_nil, List.nil_append, Ptr.add_nil]
    generalize hq : r.head? = q at hr
    rcases q with _ | t
    · rfl
    · cases t with
      | key k => exact absurd rfl (hr k)
      | _ => rfl
  | cons p ps ih =>
    intro fuel g l hf h hl hv hpt hg hgd
    obtain ⟨m, rfl⟩ : ∃ m, fuel = m + 1 := ⟨fuel - 1, by simp at hf; omega⟩
    simp only [List.map_cons, parseTables] at hl
    obtain ⟨q, hq, hl⟩ := bind_ok hl
    cases q with
    | none => simp at hl
    | some q =>
      simp only at hl
      obtain ⟨l', hl', hl⟩ := bind_ok hl
      cases l' with
      | none => simp at hl
      | some l' =>
        simp only at hl
        have : l = q :: l' := (Option.some.inj (Res.ok.inj hl)).symm
        subst this
        obtain ⟨h1, h2, h3⟩ := h p (by simp)
        rw [List.flatMap_cons, List.append_assoc]
        unfold potentials
        rw [run_some (run_peek _)]
        have hh : (p.lexemes ++ (ps.flatMap PotText.lexemes ++ r)).head? = some (.key .potential) := rfl
        simp only [hh]
        rw [run_some (potentialRule_eq num ι p h1 h2 h3 hq hv hpt hg hgd _)]
        rw [ih m { g with pots := g.pots.add [q] } l' (by simpa using hf) (fun p hp => h p (by simp [hp])) hl' hv (Ptr.add_freed hpt [q]) hg hgd]
        simp only [Ptr.add_add, List.cons_append, List.nil_append]

end Nip
