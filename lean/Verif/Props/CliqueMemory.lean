import Verif.CliqueMemoryLemmas

/-!
# C111: memory of new cliques and separators
-/

namespace Nip.Props

open Nip Res Spec Store TreeMemory

/-- A table is in memory: structure, numbers of states, numbers, and no list of properties or an empty one. -/
def TableIn (m : PotMemory) (p : MemPtr) (cards : List Nat) : Prop :=
  ∃ a c t d l row, p = .block a ∧ m.blocks a = some (.potential { dim := cards.length, size := cards.prod, card := .block c, temp := .block t, data := .block d, properties := l }) ∧
    m.blocks c = some (.ints row) ∧ row.take cards.length = cards ∧ m.blocks d = some (.reals cards.prod) ∧
    (l = .null ∨ ∃ x, l = .block x ∧ m.blocks x = some (.list { length := 0, first := .null, last := .null }))

/-- A clique is in memory, with these variables and two tables of its own; its list of separators begins at `q`. -/
def CliqueIn (card : Nat → Nat) (w : TreeMemory) (c : Nat) (vs : List Nat) (q : MemPtr) : Prop :=
  ∃ v p o, w.rest.blocks c = some (.clique { vars := .block v, p := p, orig := o, sepsets := q }) ∧ w.rest.blocks v = some (.vars vs) ∧
    TableIn w.pots p (vs.map card) ∧ TableIn w.pots o (vs.map card) ∧ p ≠ o

/-- A separator is in memory, with these variables, two tables of its own and these cliques. -/
def SepsetIn (card : Nat → Nat) (w : TreeMemory) (s : Nat) (vs : List Nat) (a b : Nat) : Prop :=
  ∃ v old new, w.rest.blocks s = some (.sepset { vars := v, old := old, new := new, first := .block a, second := .block b }) ∧
    (vs = [] → v = .null) ∧ (vs ≠ [] → ∃ x, v = .block x ∧ w.rest.blocks x = some (.vars vs)) ∧ TableIn w.pots old (vs.map card) ∧ TableIn w.pots new (vs.map card) ∧ old ≠ new

/-- everything that was in use is as it was -/
def Unchanged {B : Type} (m m' : Store B) : Prop := ∀ x, m.blocks x ≠ none → m'.blocks x = m.blocks x

theorem keeps_unchanged {B : Type} {m m' : Store B} {M : Multiset Nat} (h : m.Within M) (k : m.Keeps m' M) : Unchanged m m' := by
  intro x hx
  exact k.same x ((h.used x).1 (by cases e : m.blocks x <;> simp_all))

theorem good_tableIn {e : TEntry} {m : PotMemory} {cards : List Nat} (h : e.Good m cards) : TableIn m (.block e.addr) cards := by
  obtain ⟨row, h1, h2⟩ := h.row
  exact ⟨_, _, _, _, _, row, rfl, h.cell, h1, h2, h.data, h.list⟩

theorem entries_differ {e f : TEntry} {m : PotMemory} {N : Multiset Nat} (h : m.Within (e.blocks + (f.blocks + N))) : (MemPtr.block e.addr) ≠ .block f.addr := by
  intro he
  have h1 : e.addr = f.addr := by simpa using he
  have h2 := h.nodup
  rw [Multiset.nodup_add] at h2
  have h3 := h2.2.2
  rw [Multiset.disjoint_left] at h3
  exact h3 (a := e.addr) (by simp [TEntry.blocks]) (by rw [h1]; simp [TEntry.blocks])

/-- C111.  Creating a clique, whichever allocations fail. -/
theorem C111_clique (card : Nat → Nat) (vars : List Nat) (hv : vars.Nodup) (w : TreeMemory) (hr : ∀ b, w.rest.next ≤ b → w.rest.blocks b = none) (hp : ∀ b, w.pots.next ≤ b → w.pots.blocks b = none) :
    ((∃ j < 5, w.rest.fails (w.rest.next + j) = true) → ∃ w', newClique card vars w = ok (.null, w') ∧ w'.rest.blocks = w.rest.blocks ∧ w'.pots = w.pots) ∧
    ((∀ j < 5, w.rest.fails (w.rest.next + j) = false) →
      match tablesFate w.pots.fails w.pots.next with
      | .undefined => newClique card vars w = ub
      | .missing lost => ∃ w', newClique card vars w = ok (.null, w') ∧ w'.rest.blocks = w.rest.blocks ∧ Unchanged w.pots w'.pots ∧ w'.pots.inUse = w.pots.inUse + lost
      | .made n => ∃ c vs w', newClique card vars w = ok (.block c, w') ∧ vs.Perm vars ∧ vs.Pairwise (· < ·) ∧ CliqueIn card w' c vs .null ∧
          Unchanged w.rest w'.rest ∧ w'.rest.inUse = w.rest.inUse + 2 ∧ Unchanged w.pots w'.pots ∧ w'.pots.inUse = w.pots.inUse + n ∧
          ∃ w'', freeClique w' (.block c) = ok w'' ∧ w''.rest.blocks = w.rest.blocks ∧ w''.pots.blocks = w.pots.blocks) := by
  have wr := Store.within_used hr
  have wp := Store.within_used hp
  obtain ⟨h1, h2⟩ := newClique_spec (card := card) hv wr wp
  refine ⟨fun h => ?_, fun h => ?_⟩
  · obtain ⟨r, a1, w1, k1⟩ := h1 h
    exact ⟨_, a1, Store.SameOn.all wr k1.same w1, rfl⟩
  · have h3 := h2 h
    generalize tablesFate w.pots.fails w.pots.next = F at h3 ⊢
    match F with
    | .undefined => exact h3
    | .missing lost =>
      obtain ⟨w', L, q1, q2, q3, q4, q5, q6⟩ := h3
      refine ⟨w', q1, Store.SameOn.all wr q3.same q2, keeps_unchanged wp q6, ?_⟩
      rw [q4.count, wp.count, Multiset.card_add, q5, Nat.add_comm]
    | .made n =>
      obtain ⟨c, v, e, f, vs, w', q1, q2, q3, q4, q5, q6, q7, q8, q9, q10, q11⟩ := h3
      obtain ⟨w'', f1, f2, f3, f4, f5⟩ := freeClique_spec q3 q7 q5 q6 q9
      refine ⟨c, vs, w', q1, q2.1, q2.2, ⟨v, _, _, q3, q4, good_tableIn q5, good_tableIn q6, entries_differ q9⟩, keeps_unchanged wr q8, ?_, keeps_unchanged wp q11, ?_, w'', f1,
        Store.SameOn.all wr (q8.same.trans f3.same) f2, Store.SameOn.all wp (q11.same.trans f5.same) f4⟩
      · rw [q7.count, wr.count]
        simp only [Multiset.card_add, Multiset.card_singleton]
        omega
      · rw [q9.count, wp.count]
        simp only [Multiset.card_add]
        omega

/-- C111.  Creating a separator of two cliques, whichever allocations fail; its variables are those of the first clique that are also in the second one. -/
theorem C111_sepset (card : Nat → Nat) (w : TreeMemory) (hr : ∀ b, w.rest.next ≤ b → w.rest.blocks b = none) (hp : ∀ b, w.pots.next ≤ b → w.pots.blocks b = none)
    {a b : Nat} {va vb : List Nat} {qa qb : MemPtr} (ha : CliqueIn card w a va qa) (hb : CliqueIn card w b vb qb) {common : List Nat} (hcom : common = va.filter (· ∈ vb)) :
    (w.rest.fails w.rest.next = true → ∃ w', newSepset card (.block a) (.block b) w = ok (.null, w') ∧ w'.rest.blocks = w.rest.blocks ∧ w'.pots = w.pots) ∧
    (w.rest.fails w.rest.next = false → common ≠ [] → w.rest.fails (w.rest.next + 1) = true →
      ∃ w', newSepset card (.block a) (.block b) w = ok (.null, w') ∧ w'.rest.blocks = w.rest.blocks ∧ w'.pots = w.pots) ∧
    (w.rest.fails w.rest.next = false → common ≠ [] → w.rest.fails (w.rest.next + 1) = false → w.rest.fails (w.rest.next + 2) = true → newSepset card (.block a) (.block b) w = ub) ∧
    (w.rest.fails w.rest.next = false → (common ≠ [] → w.rest.fails (w.rest.next + 1) = false ∧ w.rest.fails (w.rest.next + 2) = false) →
      match tablesFate w.pots.fails w.pots.next with
      | .undefined => newSepset card (.block a) (.block b) w = ub
      | .missing lost => ∃ w', newSepset card (.block a) (.block b) w = ok (.null, w') ∧ w'.rest.blocks = w.rest.blocks ∧ Unchanged w.pots w'.pots ∧ w'.pots.inUse = w.pots.inUse + lost
      | .made n => ∃ s w', newSepset card (.block a) (.block b) w = ok (.block s, w') ∧ SepsetIn card w' s common a b ∧
          Unchanged w.rest w'.rest ∧ w'.rest.inUse = w.rest.inUse + (if common = [] then 1 else 2) ∧ Unchanged w.pots w'.pots ∧ w'.pots.inUse = w.pots.inUse + n ∧
          ∃ w'', freeSepset w' (.block s) = ok w'' ∧ w''.rest.blocks = w.rest.blocks ∧ w''.pots.blocks = w.pots.blocks) := by
  have wr := Store.within_used hr
  have wp := Store.within_used hp
  generalize ((List.range w.rest.next).filter (fun b => (w.rest.blocks b).isSome) : Multiset Nat) = M at wr
  generalize ((List.range w.pots.next).filter (fun b => (w.pots.blocks b).isSome) : Multiset Nat) = N at wp
  have hbn : ∀ x : Nat, (MemPtr.block x == MemPtr.null) = false := fun _ => rfl
  have hnn : (MemPtr.null == MemPtr.null) = true := rfl
  obtain ⟨xa, pa, oa, a1, a2, ⟨ta, _, _, _, _, _, rfl, a3, _⟩, _⟩ := ha
  obtain ⟨xb, pb, ob, b1, b2, ⟨tb, _, _, _, _, _, rfl, b3, _⟩, _⟩ := hb
  have mem : ∀ {x y}, w.rest.blocks x = some y → x ∈ M := fun {x y} h => (wr.used x).1 (by rw [h]; rfl)
  have hisect := variableIsect_eq va vb
  rw [← hcom] at hisect
  have htake := takeVars_eq common
  obtain ⟨m, r0⟩ := w
  simp only at wr wp a1 a2 a3 b1 b2 b3 mem ⊢
  rcases wr.any (.sepset { vars := .junk, old := .junk, new := .junk, first := .block a, second := .block b }) with ⟨r1, c1, f1, w1, k1, n1⟩ | ⟨r1, c1, f1, w1, d1, k1, n1⟩
  · refine ⟨fun _ => ⟨⟨m, r1⟩, ?_, Store.SameOn.all wr k1.same w1, rfl⟩, fun h => (by rw [f1] at h; cases h), fun h => (by rw [f1] at h; cases h), fun h => (by rw [f1] at h; cases h)⟩
    unfold newSepset
    simp only [isNull_block, ok_bind, Bool.or_false, Bool.false_eq_true, if_false, c1, hnn, if_true]
  have ea : cliqueAt r1 (.block a) = _ := cliqueAt_eq (by rw [k1.same _ (mem a1)]; exact a1)
  have eb : cliqueAt r1 (.block b) = _ := cliqueAt_eq (by rw [k1.same _ (mem b1)]; exact b1)
  have ga : varsOf r1 (.block xa) (va.map card).length = ok va := by rw [List.length_map]; exact varsOf_eq (by rw [k1.same _ (mem a2)]; exact a2)
  have gb : varsOf r1 (.block xb) (vb.map card).length = ok vb := by rw [List.length_map]; exact varsOf_eq (by rw [k1.same _ (mem b2)]; exact b2)
  by_cases hS : common = []
  · obtain ⟨r2, c2, w2, d2, k2, n2⟩ := w1.write (.sepset { vars := .null, old := .junk, new := .junk, first := .block a, second := .block b })
    refine ⟨fun h => (by rw [f1] at h; cases h), fun _ h => absurd hS h, fun _ h => absurd hS h, fun _ _ => ?_⟩
    have sp := fillSepset_spec (card := card) (a := .block a) (b := .block b) (vs := common) (w := ⟨m, r2⟩) (s := r0.next) (v := .null) (q := .null) (M := M) (N := N) (by simp) (by simp)
      (w2.as (by simp only [MemPtr.blocks, zero_add])) wp
    have eq : newSepset card (.block a) (.block b) ⟨m, r0⟩ = fillSepset card (.block a) (.block b) common ⟨m, r2⟩ (.block r0.next) .null .null := by
      unfold newSepset
      simp only [isNull_block, ok_bind, Bool.or_false, Bool.false_eq_true, if_false, c1, hbn, ea, eb, Store.potentialAt_eq a3, Store.potentialAt_eq b3, ga, gb, hisect, htake]
      rw [if_pos (by rw [hS]; rfl), c2, ok_bind]
    rw [eq]
    simp only at sp
    generalize tablesFate m.fails m.next = F at sp ⊢
    match F with
    | .undefined => exact sp
    | .missing lost =>
      obtain ⟨w', L, q1, q2, q3, q4, q5, q6⟩ := sp
      refine ⟨w', q1, Store.SameOn.all wr (k1.trans (k2.trans q3)).same q2, keeps_unchanged wp q6, ?_⟩
      rw [q4.count, wp.count, Multiset.card_add, q5, Nat.add_comm]
    | .made n =>
      obtain ⟨e, f, w', q1, q3, q5, q6, q7, q8, q9, q10, q11⟩ := sp
      obtain ⟨w'', g1, g2, g3, g4, g5⟩ := freeSepset_spec (by simp) q3 q7 q5 q6 q9
      have kk : r0.Keeps w'.rest M := k1.trans (k2.trans (q8.mono (Multiset.le_add_left _ _)))
      refine ⟨r0.next, w', q1, ⟨.null, _, _, q3, fun _ => rfl, fun h => absurd hS h, good_tableIn q5, good_tableIn q6, entries_differ q9⟩, keeps_unchanged wr kk, ?_, keeps_unchanged wp q11, ?_, w'', g1,
        Store.SameOn.all wr (kk.trans g3).same g2, Store.SameOn.all wp (q11.same.trans g5.same) g4⟩
      · rw [q7.count, wr.count, if_pos hS]
        simp only [MemPtr.blocks, Multiset.card_add, Multiset.card_singleton, Multiset.card_zero]
        omega
      · rw [q9.count, wp.count]
        simp only [Multiset.card_add]
        omega
  · have hlen : common.length ≠ 0 := fun h => hS (List.length_eq_zero_iff.1 h)
    rcases w1.any (.vars common) with ⟨r2, c2, f2, w2, k2, n2⟩ | ⟨r2, c2, f2, w2, d2, k2, n2⟩
    · have f2' : r0.fails (r0.next + 1) = true := by rw [← k1.fails, ← n1]; exact f2
      obtain ⟨r3, c3, w3, k3, n3⟩ := Within.release (q := .block r0.next) (by simp) w2
      refine ⟨fun h => (by rw [f1] at h; cases h), fun _ _ _ => ⟨⟨m, r3⟩, ?_, Store.SameOn.all wr (k1.trans ((k2.mono (Multiset.le_add_left _ _)).trans k3)).same w3, rfl⟩,
        fun _ _ h => (by rw [f2'] at h; cases h), fun _ h => (by rw [f2'] at h; cases (h hS).1)⟩
      unfold newSepset
      simp only [isNull_block, ok_bind, Bool.or_false, Bool.false_eq_true, if_false, c1, hbn, ea, eb, Store.potentialAt_eq a3, Store.potentialAt_eq b3, ga, gb, hisect, htake, hlen, c2, hnn, if_true, c3]
    have f2' : r0.fails (r0.next + 1) = false := by rw [← k1.fails, ← n1]; exact f2
    obtain ⟨r3, c3, w3, d3, k3, n3⟩ := Within.write (a := r0.next) (m := r2) (M := {r1.next} + M) (w2.as (by ac_rfl)) (.sepset { vars := .block r1.next, old := .junk, new := .junk, first := .block a, second := .block b })
    have k03 : r0.Keeps r3 M := k1.trans ((k2.mono (Multiset.le_add_left _ _)).trans (k3.mono (Multiset.le_add_left _ _)))
    have kf3 : r3.fails = r0.fails := k03.fails
    have e3 : r3.next = r0.next + 2 := by omega
    rcases w3.any .scratch with ⟨r4, c4, f4, w4, k4, n4⟩ | ⟨r4, c4, f4, w4, d4, k4, n4⟩
    · have f4' : r0.fails (r0.next + 2) = true := by rw [← kf3, ← e3]; exact f4
      refine ⟨fun h => (by rw [f1] at h; cases h), fun _ _ h => (by rw [f2'] at h; cases h), fun _ _ _ _ => ?_, fun _ h => (by rw [f4'] at h; cases (h hS).2)⟩
      have d4 : r4.blocks r0.next = some (.sepset { vars := .block r1.next, old := .junk, new := .junk, first := .block a, second := .block b }) := by rw [k4.same _ (by simp)]; exact d3
      unfold newSepset
      simp only [isNull_block, ok_bind, Bool.or_false, Bool.false_eq_true, if_false, c1, hbn, ea, eb, Store.potentialAt_eq a3, Store.potentialAt_eq b3, ga, gb, hisect, htake, hlen, c2, c3, c4, hnn, if_true]
      unfold freeSepset
      simp only [isNull_block, ok_bind, Bool.false_eq_true, if_false, sepsetAt_eq d4]
      rfl
    have f4' : r0.fails (r0.next + 2) = false := by rw [← kf3, ← e3]; exact f4
    refine ⟨fun h => (by rw [f1] at h; cases h), fun _ _ h => (by rw [f2'] at h; cases h), fun _ _ _ h => (by rw [f4'] at h; cases h), fun _ _ => ?_⟩
    have sp := fillSepset_spec (card := card) (a := .block a) (b := .block b) (vs := common) (w := ⟨m, r4⟩) (s := r0.next) (v := .block r1.next) (q := .block r3.next) (M := M) (N := N) (by simp) (by simp)
      (w4.as (by simp only [MemPtr.blocks])) wp
    have eq : newSepset card (.block a) (.block b) ⟨m, r0⟩ = fillSepset card (.block a) (.block b) common ⟨m, r4⟩ (.block r0.next) (.block r1.next) (.block r3.next) := by
      unfold newSepset
      simp only [isNull_block, ok_bind, Bool.or_false, Bool.false_eq_true, if_false, c1, hbn, ea, eb, Store.potentialAt_eq a3, Store.potentialAt_eq b3, ga, gb, hisect, htake, hlen, c2, c3, c4]
    rw [eq]
    have k04 : r0.Keeps r4 M := k03.trans (k4.mono ((Multiset.le_add_left _ _).trans (Multiset.le_add_left _ _)))
    simp only at sp
    generalize tablesFate m.fails m.next = F at sp ⊢
    match F with
    | .undefined => exact sp
    | .missing lost =>
      obtain ⟨w', L, q1, q2, q3, q4, q5, q6⟩ := sp
      refine ⟨w', q1, Store.SameOn.all wr (k04.trans q3).same q2, keeps_unchanged wp q6, ?_⟩
      rw [q4.count, wp.count, Multiset.card_add, q5, Nat.add_comm]
    | .made n =>
      obtain ⟨e, f, w', q1, q3, q5, q6, q7, q8, q9, q10, q11⟩ := sp
      obtain ⟨w'', g1, g2, g3, g4, g5⟩ := freeSepset_spec (by simp) q3 q7 q5 q6 q9
      have kk : r0.Keeps w'.rest M := k04.trans (q8.mono (Multiset.le_add_left _ _))
      have d5 : w'.rest.blocks r1.next = some (.vars common) := by
        rw [q8.same _ (by simp [MemPtr.blocks])]
        show r4.blocks r1.next = _
        rw [k4.same _ (by simp), k3.same _ (by simp)]
        exact d2
      refine ⟨r0.next, w', q1, ⟨.block r1.next, _, _, q3, fun h => absurd h hS, fun _ => ⟨_, rfl, d5⟩, good_tableIn q5, good_tableIn q6, entries_differ q9⟩, keeps_unchanged wr kk, ?_, keeps_unchanged wp q11, ?_, w'', g1,
        Store.SameOn.all wr (kk.trans g3).same g2, Store.SameOn.all wp (q11.same.trans g5.same) g4⟩
      · rw [q7.count, wr.count, if_neg hS]
        simp only [MemPtr.blocks, Multiset.card_add, Multiset.card_singleton]
        omega
      · rw [q9.count, wp.count]
        simp only [Multiset.card_add]
        omega

/-- C111.  Confirming a separator of two cliques, whichever allocations fail.  The list of a clique is given by the places of its entries and the separators they hold. -/
theorem C111_confirm (w : TreeMemory) (hr : ∀ b, w.rest.next ≤ b → w.rest.blocks b = none) {s a b : Nat} {k : SepsetCell} {ka kb : CliqueCell} {la lb : List (Nat × MemPtr)}
    (hs : w.rest.blocks s = some (.sepset k)) (hk : k.first = .block a ∧ k.second = .block b) (hab : a ≠ b) (ha : w.rest.blocks a = some (.clique ka)) (hb : w.rest.blocks b = some (.clique kb))
    (hla : SepChain w.rest .null ka.sepsets la) (hlb : SepChain w.rest .null kb.sepsets lb) (hd : (la.map Prod.fst ++ lb.map Prod.fst).Nodup) :
    (w.rest.fails w.rest.next = false → w.rest.fails (w.rest.next + 1) = false →
      ∃ w' x y, confirmSepset w (.block s) = ok (0, w') ∧ w'.pots = w.pots ∧ w'.rest.inUse = w.rest.inUse + 2 ∧
        w'.rest.blocks a = some (.clique { ka with sepsets := .block x }) ∧ SepChain w'.rest .null (.block x) ((x, .block s) :: la) ∧
        w'.rest.blocks b = some (.clique { kb with sepsets := .block y }) ∧ SepChain w'.rest .null (.block y) ((y, .block s) :: lb) ∧
        ∀ z, w.rest.blocks z ≠ none → z ≠ a → z ≠ b → z ∉ la.map Prod.fst → z ∉ lb.map Prod.fst → w'.rest.blocks z = w.rest.blocks z) ∧
    (w.rest.fails w.rest.next ≠ w.rest.fails (w.rest.next + 1) →
      ∃ w', confirmSepset w (.block s) = ok (ENOMEM, w') ∧ w'.pots = w.pots ∧ w'.rest.inUse = w.rest.inUse + 1 ∧ Unchanged w.rest w'.rest) ∧
    (w.rest.fails w.rest.next = true → w.rest.fails (w.rest.next + 1) = true →
      ∃ w', confirmSepset w (.block s) = ok (ENOMEM, w') ∧ w'.pots = w.pots ∧ w'.rest.blocks = w.rest.blocks) := by
  have wr := Store.within_used hr
  generalize ((List.range w.rest.next).filter (fun b => (w.rest.blocks b).isSome) : Multiset Nat) = M at wr
  have hbn : ∀ x : Nat, (MemPtr.block x == MemPtr.null) = false := fun _ => rfl
  have hnn : (MemPtr.null == MemPtr.null) = true := rfl
  have mem : ∀ {x y}, w.rest.blocks x = some y → x ∈ M := fun {x y} h => (wr.used x).1 (by rw [h]; rfl)
  have fresh : ∀ {x y z}, w.rest.blocks x = some y → w.rest.next ≤ z → z ≠ x := by
    intro x y z h hz e
    have := wr.below x (mem h)
    omega
  obtain ⟨m, r0⟩ := w
  simp only at wr mem fresh hs ha hb hla hlb ⊢
  rcases wr.any (.link { data := .junk, fwd := .junk, bwd := .junk }) with ⟨r1, c1, f1, w1, k1, n1⟩ | ⟨r1, c1, f1, w1, d1, k1, n1⟩
  · rcases w1.any (.link { data := .junk, fwd := .junk, bwd := .junk }) with ⟨r2, c2, f2, w2, k2, n2⟩ | ⟨r2, c2, f2, w2, d2, k2, n2⟩
    · have f2' : r0.fails (r0.next + 1) = true := by rw [← k1.fails, ← n1]; exact f2
      refine ⟨fun h => (by rw [f1] at h; cases h), fun h => absurd (f1.trans f2'.symm) h, fun _ _ => ⟨⟨m, r2⟩, ?_, rfl, Store.SameOn.all wr (k1.trans k2).same w2⟩⟩
      unfold confirmSepset
      simp only [c1, c2, hnn, Bool.or_true, if_true]
    · have f2' : r0.fails (r0.next + 1) = false := by rw [← k1.fails, ← n1]; exact f2
      refine ⟨fun h => (by rw [f1] at h; cases h), fun _ => ⟨⟨m, r2⟩, ?_, rfl, ?_, keeps_unchanged wr (k1.trans k2)⟩, fun _ h => (by rw [f2'] at h; cases h)⟩
      · unfold confirmSepset
        simp only [c1, c2, hnn, Bool.true_or, if_true]
      · show r2.inUse = r0.inUse + 1
        rw [w2.count, wr.count]
        simp only [Multiset.card_add, Multiset.card_singleton]
        omega
  rcases w1.any (.link { data := .junk, fwd := .junk, bwd := .junk }) with ⟨r2, c2, f2, w2, k2, n2⟩ | ⟨r2, c2, f2, w2, d2, k2, n2⟩
  · have f2' : r0.fails (r0.next + 1) = true := by rw [← k1.fails, ← n1]; exact f2
    refine ⟨fun _ h => (by rw [f2'] at h; cases h), fun _ => ⟨⟨m, r2⟩, ?_, rfl, ?_, keeps_unchanged wr (k1.trans (k2.mono (Multiset.le_add_left _ _)))⟩, fun h => (by rw [f1] at h; cases h)⟩
    · unfold confirmSepset
      simp only [c1, c2, hnn, hbn, Bool.or_true, if_true]
    · show r2.inUse = r0.inUse + 1
      rw [w2.count, wr.count]
      simp only [Multiset.card_add, Multiset.card_singleton]
      omega
  have f2' : r0.fails (r0.next + 1) = false := by rw [← k1.fails, ← n1]; exact f2
  refine ⟨fun _ _ => ?_, fun h => absurd (f1.trans f2'.symm) h, fun h => (by rw [f1] at h; cases h)⟩
  have k02 : r0.Keeps r2 M := k1.trans (k2.mono (Multiset.le_add_left _ _))
  have same : ∀ {x y}, r0.blocks x = some y → r2.blocks x = some y := fun {x y} h => by rw [k02.same _ (mem h)]; exact h
  have e1 : r2.blocks r0.next = some (.link { data := .junk, fwd := .junk, bwd := .junk }) := by rw [k2.same _ (by simp)]; exact d1
  have dab := List.nodup_append.1 hd
  have keepA : SepChain r2 .null ka.sepsets la := hla.keep (fun x hx => by
    obtain ⟨j, hj⟩ := hla.link x hx
    rw [same hj, hj])
  have keepB : SepChain r2 .null kb.sepsets lb := hlb.keep (fun x hx => by
    obtain ⟨j, hj⟩ := hlb.link x hx
    rw [same hj, hj])
  have newA : ∀ n, r0.next ≤ n → n ∉ la.map Prod.fst := by
    intro n hn h
    obtain ⟨j, hj⟩ := hla.link n h
    exact fresh hj hn rfl
  have newB : ∀ n, r0.next ≤ n → n ∉ lb.map Prod.fst := by
    intro n hn h
    obtain ⟨j, hj⟩ := hlb.link n h
    exact fresh hj hn rfl
  have notA : ∀ {x y}, r0.blocks x = some y → (∀ j, y ≠ .link j) → x ∉ la.map Prod.fst := by
    intro x y h hy hx
    obtain ⟨j, hj⟩ := hla.link x hx
    rw [h] at hj
    exact hy j (by simpa using hj)
  have notB : ∀ {x y}, r0.blocks x = some y → (∀ j, y ≠ .link j) → x ∉ lb.map Prod.fst := by
    intro x y h hy hx
    obtain ⟨j, hj⟩ := hlb.link x hx
    rw [h] at hj
    exact hy j (by simpa using hj)
  obtain ⟨r3, p1, p2, p3, p4, p5, p6⟩ := putFirst_spec (s := .block s) e1 (fresh ha (Nat.le_refl _)) (same ha) keepA dab.1 (newA _ (Nat.le_refl _))
  have hsa : s ≠ a := by
    rintro rfl
    rw [hs] at ha
    cases ha
  have s3 : r3.blocks s = some (.sepset k) := by
    rw [p6 s hsa (fresh hs (Nat.le_refl _)).symm (notA hs (by simp))]
    exact same hs
  have b3 : r3.blocks b = some (.clique kb) := by
    rw [p6 b hab.symm (fresh hb (Nat.le_refl _)).symm (notA hb (by simp))]
    exact same hb
  have e3 : r3.blocks r1.next = some (.link { data := .junk, fwd := .junk, bwd := .junk }) := by
    rw [p6 r1.next (fresh ha (by omega)) (by omega) (newA _ (by omega))]
    exact d2
  have keepB3 : SepChain r3 .null kb.sepsets lb := keepB.keep (fun x hx => by
    obtain ⟨j, hj⟩ := hlb.link x hx
    refine p6 x ?_ (fresh hj (Nat.le_refl _)).symm (fun h => dab.2.2 x h x hx rfl)
    rintro rfl
    rw [ha] at hj
    cases hj)
  obtain ⟨r4, q1, q2, q3, q4, q5, q6⟩ := putFirst_spec (s := .block s) e3 (fresh hb (by omega)) b3 keepB3 dab.2.1 (newB _ (by omega))
  refine ⟨⟨m, r4⟩, r0.next, r1.next, ?_, rfl, ?_, ?_, ?_, q4, q5, ?_⟩
  · unfold confirmSepset
    simp only [c1, c2, hbn, Bool.or_false, Bool.false_eq_true, if_false]
    rw [sepsetAt_eq (same hs), ok_bind, hk.1, p1, ok_bind, sepsetAt_eq s3, ok_bind, hk.2, q1, ok_bind]
  · show r4.inUse = r0.inUse + 2
    rw [inUse_congr q2 q3, inUse_congr p2 p3, w2.count, wr.count]
    simp only [Multiset.card_add, Multiset.card_singleton]
    omega
  · show r4.blocks a = _
    rw [q6 a hab (fresh ha (by omega)).symm (notB ha (by simp))]
    exact p4
  · refine p5.keep (fun x hx => ?_)
    show r4.blocks x = r3.blocks x
    simp only [List.map_cons, List.mem_cons] at hx
    rcases hx with rfl | hx
    · exact q6 _ (fresh hb (Nat.le_refl _)) (by omega) (newB _ (Nat.le_refl _))
    · obtain ⟨j, hj⟩ := hla.link x hx
      refine q6 x ?_ (fresh hj (by omega)).symm (fun h => dab.2.2 x hx x h rfl)
      rintro rfl
      rw [hb] at hj
      cases hj
  · intro z hz za zb zla zlb
    show r4.blocks z = r0.blocks z
    obtain ⟨y, hy⟩ := Option.ne_none_iff_exists'.1 hz
    rw [q6 z zb (fresh hy (by omega)).symm zlb, p6 z za (fresh hy (Nat.le_refl _)).symm zla, same hy, hy]

/-! ## Cases -/

/-- Nothing is in memory. -/
def emptyTree (pf rf : Nat → Bool) : TreeMemory := { pots := Store.empty pf, rest := Store.empty rf }

/-- two cliques with the variables 4, 1, 3 and 3, 5, 4, of two and three states, then their separator, which is confirmed -/
def treeRun (pf rf : Nat → Bool) : Res (MemPtr × MemPtr × MemPtr × Nat × TreeMemory) := do
  let card := fun v => if v = 3 then 3 else 2
  let (a, w) ← newClique card [4, 1, 3] (emptyTree pf rf)
  let (b, w) ← newClique card [3, 5, 4] w
  let (s, w) ← newSepset card a b w
  let (code, w) ← confirmSepset w s
  ok (a, b, s, code, w)

/-- the answers of that run, and the numbers of blocks in use -/
def treeAnswer (pf rf : Nat → Bool) : Res (MemPtr × MemPtr × MemPtr × Nat × Nat × Nat) := do
  let (a, b, s, code, w) ← treeRun pf rf
  ok (a, b, s, code, w.pots.inUse, w.rest.inUse)

/-- Without failures: six tables of five blocks; two blocks for each of the three, and two entries of lists. -/
example : treeAnswer (fun _ => false) (fun _ => false) = ok (.block 0, .block 5, .block 10, 0, 30, 8) := by decide +kernel

/-- The last allocation fails: this is reported, and one block is lost. -/
example : treeAnswer (fun _ => false) (fun k => k == 14) = ok (.block 0, .block 5, .block 10, ENOMEM, 30, 7) := by decide +kernel

/-- No memory for the numbers of states of the separator: undefined. -/
example : treeAnswer (fun _ => false) (fun k => k == 12) = ub := by decide +kernel

/-- No memory for the numbers of a table: undefined; for the numbers of states of a table of the separator but for its temporary indices: no separator, and one block lost. -/
example : treeAnswer (fun k => k == 3) (fun _ => false) = ub ∧ tablesFate (fun k => k == 21) 20 = .missing 1 ∧ tablesFate (fun k => k == 3) 0 = .undefined ∧ tablesFate (fun k => k == 4) 0 = .made 9 := by decide +kernel

/-- the variables of a separator, and what the lists of its cliques begin with -/
example : (do
    let (a, b, s, _, w) ← treeRun (fun _ => false) (fun _ => false)
    let k ← sepsetAt w.rest s
    let vs ← varsOf w.rest k.vars 2
    let ca ← cliqueAt w.rest a
    let cb ← cliqueAt w.rest b
    let xa ← sepLinkAt w.rest ca.sepsets
    let xb ← sepLinkAt w.rest cb.sepsets
    ok (vs, decide (xa.data = s), decide (xb.data = s))) = ok ([3, 4], true, true) := by decide +kernel

/-- A third clique, and its separator from the first one: the list of the first clique has two entries, linked in both directions, the others one. -/
example : (do
    let (a, _, s, _, w) ← treeRun (fun _ => false) (fun _ => false)
    let (c, w) ← newClique (fun _ => 2) [6, 1] w
    let (t, w) ← newSepset (fun _ => 2) a c w
    let (code, w) ← confirmSepset w t
    let ca ← cliqueAt w.rest a
    let x ← sepLinkAt w.rest ca.sepsets
    let y ← sepLinkAt w.rest x.fwd
    let cc ← cliqueAt w.rest c
    let z ← sepLinkAt w.rest cc.sepsets
    ok (code, decide (x.data = t ∧ x.bwd = .null ∧ y.data = s ∧ y.bwd = ca.sepsets ∧ y.fwd = .null ∧ z.data = t ∧ z.fwd = .null), w.pots.inUse, w.rest.inUse)) = ok (0, true, 50, 14) := by decide +kernel

end Nip.Props
