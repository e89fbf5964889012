import Verif.WriteAll
import Verif.HuginInput
import Verif.NetTableLemmas

/-! # Reading what `write_model` printed -/

namespace Nip

open Res Spec

set_option linter.unusedSectionVars false

variable {K : Type} [Field K] [LinearOrder K] [IsStrictOrderedRing K]

/-- the place of a variable, counted from `base` -/
def renamed (f : NetFile K) (base v : Nat) : Nat := base + f.vars.idxOf v

theorem renamed_inj {f : NetFile K} {base u v : Nat} (hu : u ∈ f.vars) (h : renamed f base u = renamed f base v) : u = v := by
  unfold renamed at h
  exact (List.idxOf_inj hu).1 (by omega)

theorem map_renamed {f : NetFile K} (hnd : f.vars.Nodup) (base : Nat) : f.vars.map (renamed f base) = List.range' base f.vars.length := by
  apply List.ext_getElem
  · simp
  · intro i h1 h2
    rw [List.getElem_map, List.getElem_range']
    unfold renamed
    rw [hnd.idxOf_getElem]
    omega

section Printed

variable {fmt : K → List Char} {r : ReadModel K} (hf : r.file.Valid) (hp : r.Printable) (tab : Nat → Potential K)
include hf hp

theorem symbol_inj {u v : Nat} (hu : u ∈ r.file.vars) (hv : v ∈ r.file.vars) (h : (recOf r.nodes u).symbol = (recOf r.nodes v).symbol) : u = v := by
  obtain ⟨_, a2, a3⟩ := textsOf_eq hp.ids hu
  obtain ⟨_, b2, b3⟩ := textsOf_eq hp.ids hv
  rw [← a3, ← b3, List.inj_on_of_nodup_map hp.names a2 b2 h]

theorem names_printed : (printedText fmt r tab).nodes.map (fun n => n.name) = r.file.vars.map (fun v => (recOf r.nodes v).symbol) := by
  have hnd : r.file.vars.Nodup := hf.sorted.imp ne_of_lt
  have : r.file.vars.map (fun v => (recOf r.nodes v).symbol) = (r.file.vars.map (recOf r.nodes)).map (fun n => n.symbol) := by rw [List.map_map]; rfl
  rw [this, map_recOf hp.ids hnd]
  unfold printedText
  rw [List.map_map]
  rfl

theorem place_printed {v : Nat} (hv : v ∈ r.file.vars) : (printedText fmt r tab).place (recOf r.nodes v).symbol = r.file.vars.idxOf v := by
  have h1 : (printedText fmt r tab).place (recOf r.nodes v).symbol = ((printedText fmt r tab).nodes.map (fun n => n.name)).idxOf (recOf r.nodes v).symbol := by
    unfold NetText.place List.idxOf
    rw [List.findIdx_map]
    rfl
  rw [h1, names_printed hf hp tab]
  have : ∀ l : List Nat, (∀ u ∈ l, u ∈ r.file.vars) → (l.map (fun v => (recOf r.nodes v).symbol)).idxOf (recOf r.nodes v).symbol = l.idxOf v := by
    intro l
    induction l with
    | nil => intro _; rfl
    | cons u l ih =>
      intro hl
      rw [List.map_cons, List.idxOf_cons, List.idxOf_cons, ih fun k hk => hl k (by simp [hk])]
      by_cases e : u = v
      · subst e; simp
      · have e' : ¬ (recOf r.nodes u).symbol = (recOf r.nodes v).symbol := fun h => e (symbol_inj hf hp (hl u (by simp)) hv h)
        rw [show ((recOf r.nodes u).symbol == (recOf r.nodes v).symbol) = false from beq_eq_false_iff_ne.2 e', show (u == v) = false from beq_eq_false_iff_ne.2 e]
  exact this _ fun u hu => hu

theorem mem_printed {n : NodeText} (hn : n ∈ (printedText fmt r tab).nodes) : ∃ v ∈ r.file.vars,
    n = printedNode ((r.file.next v).map (fun u => (recOf r.nodes u).symbol)) (recOf r.nodes v) := by
  have hnd : r.file.vars.Nodup := hf.sorted.imp ne_of_lt
  obtain ⟨k, hk, rfl⟩ := List.mem_map.1 hn
  refine ⟨k.id, by rw [← hp.ids]; exact List.mem_map_of_mem hk, ?_⟩
  rw [recOf_eq hp.ids hnd hk]

theorem printed_mem {v : Nat} (hv : v ∈ r.file.vars) :
    printedNode ((r.file.next v).map (fun u => (recOf r.nodes u).symbol)) (recOf r.nodes v) ∈ (printedText fmt r tab).nodes := by
  obtain ⟨_, a2, a3⟩ := textsOf_eq hp.ids hv
  refine List.mem_map.2 ⟨_, a2, ?_⟩
  rw [a3]

theorem states_printed (next : Option (List Char)) (v : NodeRec) : (printedNode next v).states = v.states ∧ (printedNode next v).label = some v.label ∧
    (printedNode next v).next = next ∧ (printedNode next v).position = some (printNat v.posX, printNat v.posY) := by
  cases next <;> exact ⟨rfl, rfl, rfl, rfl⟩

theorem states_length {v : Nat} (hv : v ∈ r.file.vars) : (recOf r.nodes v).states.length = r.file.card v := by
  obtain ⟨_, a2, a3⟩ := textsOf_eq hp.ids hv
  rw [hp.states _ a2, a3]

theorem card_printed {v : Nat} (hv : v ∈ r.file.vars) : (printedText fmt r tab).card (recOf r.nodes v).symbol = r.file.card v := by
  unfold NetText.card
  have hsome : ((printedText fmt r tab).nodes.find? (fun n => n.name == (recOf r.nodes v).symbol)).isSome := by
    rw [List.find?_isSome]
    exact ⟨_, printed_mem hf hp tab hv, by simp [printedNode]⟩
  obtain ⟨n, hn⟩ := Option.isSome_iff_exists.1 hsome
  rw [hn]
  have h1 := List.find?_some hn
  obtain ⟨u, hu, rfl⟩ := mem_printed hf hp tab (List.mem_of_find?_eq_some hn)
  have h1 : (recOf r.nodes u).symbol = (recOf r.nodes v).symbol := by simpa [printedNode] using h1
  have := symbol_inj hf hp hu hv h1
  subst this
  simp only [Option.map_some, Option.getD_some]
  rw [(states_printed hf hp _ _).1, states_length hf hp hu]

/-- the variables of the tables, in the order of printing -/
theorem mem_order {v : Nat} : v ∈ r.file.net.roots ++ Model.childrenOf r.file ↔ v ∈ r.file.vars := by
  have hroot : r.file.net.roots = r.file.vars.filter (fun v => decide (∀ q ∈ r.file.pots, q.child = v → q.parents = [])) := rfl
  rw [List.mem_append, hroot, List.mem_filter, Model.mem_childrenOf hf, decide_eq_true_eq]
  constructor
  · rintro (h | ⟨q, q1, rfl, _⟩)
    · exact h.1
    · exact hf.child q q1
  · intro hv
    by_cases h : ∀ q ∈ r.file.pots, q.child = v → q.parents = []
    · exact Or.inl ⟨hv, h⟩
    · push Not at h
      exact Or.inr h

theorem root_givens {v : Nat} : v ∈ r.file.net.roots ↔ v ∈ r.file.vars ∧ r.file.givens v = [] := by
  have hroot : r.file.net.roots = r.file.vars.filter (fun v => decide (∀ q ∈ r.file.pots, q.child = v → q.parents = [])) := rfl
  rw [hroot, List.mem_filter, decide_eq_true_eq]
  constructor
  · rintro ⟨h1, h2⟩
    refine ⟨h1, ?_⟩
    unfold NetFile.givens
    cases hq : r.file.pots.find? (fun q => decide (q.child = v)) with
    | none => rfl
    | some q => exact h2 q (List.mem_of_find?_eq_some hq) (by simpa using List.find?_some hq)
  · rintro ⟨h1, h2⟩
    exact ⟨h1, fun q hq e => by rw [← e, givens_child hf hq] at h2; exact h2⟩

theorem order_nodup : (r.file.net.roots ++ Model.childrenOf r.file).Nodup := by
  have hnd : r.file.vars.Nodup := hf.sorted.imp ne_of_lt
  refine List.nodup_append.2 ⟨hnd.filter _, hnd.filter _, ?_⟩
  intro a ha b hb e
  subst e
  have h1 := ((root_givens hf hp).1 ha).2
  have h2 := (List.mem_filter.1 hb).2
  rw [h1] at h2
  simp at h2

/-- The table printed for a variable: its prior or the conditional table. -/
def fullTable (f : NetFile K) (tab : Nat → Potential K) (v : Nat) : Potential K := if f.givens v = [] then ⟨[f.card v], f.net.prior v⟩ else tab v

omit hp in
theorem prior_length {v : Nat} (hv : v ∈ r.file.net.roots) : (r.file.net.prior v).length = r.file.card v := by
  obtain ⟨m, _, h, _⟩ := build_parts 0 hf
  exact (h.sound.prior v hv).2.1

theorem fullTable_spec (ht : Model.TablesIn r.file tab) {v : Nat} (hv : v ∈ r.file.vars) :
    (fullTable r.file tab v).Wf ∧ (fullTable r.file tab v).card = (v :: r.file.givens v).map r.file.card ∧ ∀ a ∈ (fullTable r.file tab v).data, 0 ≤ a ∧ a ≤ 1 := by
  unfold fullTable
  split
  · rename_i h
    have hr := (root_givens hf hp).2 ⟨hv, h⟩
    refine ⟨⟨by simpa using prior_length hf hr, by simpa [Positive] using hf.states v hv⟩, by rw [h]; rfl, prior_unit hf hp hr⟩
  · rename_i h
    have hc : v ∈ Model.childrenOf r.file := List.mem_filter.2 ⟨hv, by simpa using h⟩
    exact ⟨ht.wf v hc, ht.card v hc, ht.unit v hc⟩

/-- the table of a variable in the description -/
theorem printed_pot (ht : Model.TablesIn r.file tab) {p : PotText} (hpp : p ∈ (printedText fmt r tab).pots) :
    ∃ v ∈ r.file.vars, p.child = (recOf r.nodes v).symbol ∧ p.parents.getD [] = ((r.file.givens v).map (recOf r.nodes)).reverse.map (fun u => u.symbol) ∧
      (∀ l, p.parents = some l → l ≠ []) ∧ ∃ g, p.data = some g ∧ g.words = (fullTable r.file tab v).data.map fmt := by
  rcases List.mem_append.1 hpp with h | h
  · obtain ⟨v, hv, rfl⟩ := List.mem_map.1 h
    obtain ⟨h1, h2⟩ := (root_givens hf hp).1 hv
    refine ⟨v, h1, rfl, by rw [h2]; rfl, ?_, _, rfl, ?_⟩
    · intro l hl
      exact absurd hl (by simp [printedPrior])
    rw [flat_words]
    unfold fullTable
    rw [if_pos h2]
  · obtain ⟨v, hv, rfl⟩ := List.mem_map.1 h
    obtain ⟨c1, c2, c3⟩ := givens_few hf hp hv
    have hv' : v ∈ r.file.vars := (List.mem_filter.1 hv).1
    have hne : r.file.givens v ≠ [] := List.ne_nil_of_length_pos c1
    refine ⟨v, hv', rfl, rfl, ?_, _, rfl, ?_⟩
    · intro l hl
      cases hl
      simpa using hne
    · unfold fullTable
      rw [if_neg hne]
      split
      · rw [rows_words, rowsOf_flatten, List.take_of_length_le]
        have hdvd : r.file.card v ∣ (tab v).data.length := by rw [(ht.wf v hv).1, ht.card v hv, List.map_cons, List.prod_cons]; exact Nat.dvd_mul_right _ _
        rw [Nat.div_mul_cancel hdvd, List.length_map]
      · exact flat_words _

theorem children_printed : (printedText fmt r tab).pots.map (fun p => p.child) = (r.file.net.roots ++ Model.childrenOf r.file).map (fun v => (recOf r.nodes v).symbol) := by
  unfold printedText
  rw [List.map_append, List.map_append, List.map_map, List.map_map]
  rfl

theorem pots_printed : (printedText fmt r tab).pots ≠ [] := by
  intro h
  have h1 := children_printed hf hp (fmt := fmt) tab
  rw [h] at h1
  obtain ⟨q, hq⟩ := List.exists_mem_of_ne_nil _ hf.tables
  have h2 := (mem_order hf hp).2 (hf.child q hq)
  rw [List.map_eq_nil_iff.1 h1.symm] at h2
  cases h2

/-- The description makes sense. -/
theorem printed_sensible (ht : Model.TablesIn r.file tab) {num : Numerals K} (hint : ∀ n, n < 2147483648 → num.int (printNat n) = some n)
    (hval : ∀ a, 0 ≤ a → a ≤ 1 → 0 ≤ num.value (fmt a)) : (printedText fmt r tab).Sensible num.value num.int := by
  have hnd : r.file.vars.Nodup := hf.sorted.imp ne_of_lt
  have hread : ∀ v ∈ r.file.vars, (recOf r.nodes v).Readable := fun v hv => hp.readable _ (textsOf_eq hp.ids hv).2.1
  refine ⟨?_, ?_, ?_, ?_, ?_, ?_, ?_⟩
  · obtain ⟨q, hq⟩ := List.exists_mem_of_ne_nil _ hf.tables
    exact List.ne_nil_of_mem (printed_mem hf hp tab (hf.child q hq))
  · rw [names_printed hf hp]
    exact (List.nodup_map_iff_inj_on hnd).2 fun u hu v hv h => symbol_inj hf hp hu hv h
  · intro n hn
    obtain ⟨v, hv, rfl⟩ := mem_printed hf hp tab hn
    obtain ⟨s1, s2, s3, s4⟩ := states_printed hf hp ((r.file.next v).map (fun u => (recOf r.nodes u).symbol)) (recOf r.nodes v)
    refine ⟨?_, ?_, ?_⟩
    · unfold printedNode
      cases (r.file.next v).map (fun u => (recOf r.nodes u).symbol) <;> simp [NodeField.same]
    · rw [s1]; exact (hread v hv).nonempty
    · intro p hpp
      rw [s4] at hpp
      cases hpp
      simp only
      rw [hint _ (hread v hv).posX, hint _ (hread v hv).posY]
      exact ⟨rfl, rfl⟩
  · intro x y h
    have h : NetField.size x y ∈ [NetField.size (printNat r.sizeX) (printNat r.sizeY)] := h
    simp only [List.mem_singleton, NetField.size.injEq] at h
    obtain ⟨rfl, rfl⟩ := h
    rw [hint _ hp.sizeX, hint _ hp.sizeY]
    exact ⟨rfl, rfl⟩
  · intro n hn w hw
    obtain ⟨v, hv, rfl⟩ := mem_printed hf hp tab hn
    obtain ⟨s1, s2, s3, s4⟩ := states_printed hf hp ((r.file.next v).map (fun u => (recOf r.nodes u).symbol)) (recOf r.nodes v)
    rw [s3] at hw
    obtain ⟨u, hu, rfl⟩ := Option.map_eq_some_iff.1 hw
    obtain ⟨n1, n2⟩ := hp.next v hv u hu
    refine ⟨⟨_, printed_mem hf hp tab n1, rfl⟩, ?_⟩
    rw [card_printed hf hp tab n1, s1, states_length hf hp hv, n2]
  · intro p hpp
    obtain ⟨v, hv, h1, h2, h3, g, h4, h5⟩ := printed_pot hf hp tab ht hpp
    have hg : ∀ u ∈ r.file.givens v, u ∈ r.file.vars ∧ u ≠ v := fun u hu => by
      rw [givens_eq, mem_parentsOf hf] at hu
      obtain ⟨q, q1, rfl, q3⟩ := hu
      exact (hf.parents q q1).2 u q3
    have hgn : (r.file.givens v).Nodup := (givens_spec hf v).1
    obtain ⟨f1, f2, f3⟩ := fullTable_spec hf hp tab ht hv
    have hlist : p.child :: p.parents.getD [] = (v :: (r.file.givens v).reverse).map (fun u => (recOf r.nodes u).symbol) := by
      rw [h1, h2, List.map_cons, ← List.map_reverse, List.map_map]
      rfl
    have hmem : ∀ u ∈ v :: (r.file.givens v).reverse, u ∈ r.file.vars := by
      intro u hu
      rcases List.mem_cons.1 hu with rfl | hu
      · exact hv
      · exact (hg u (List.mem_reverse.1 hu)).1
    refine ⟨?_, h3, ?_, ?_⟩
    · intro w hw
      rw [hlist] at hw
      obtain ⟨u, hu, rfl⟩ := List.mem_map.1 hw
      exact ⟨_, printed_mem hf hp tab (hmem u hu), rfl⟩
    · rw [hlist]
      refine (List.nodup_map_iff_inj_on ?_).2 fun u hu v hv h => symbol_inj hf hp (hmem u hu) (hmem v hv) h
      exact List.nodup_cons.2 ⟨fun h => (hg v (List.mem_reverse.1 h)).2 rfl, List.nodup_reverse.2 hgn⟩
    · intro g' hg'
      rw [h4] at hg'
      cases hg'
      rw [h5]
      refine ⟨?_, ?_⟩
      · rw [hlist, List.map_map, List.length_map, f1.1, f2]
        have : (v :: (r.file.givens v).reverse).map ((printedText fmt r tab).card ∘ fun u => (recOf r.nodes u).symbol) = (v :: (r.file.givens v).reverse).map r.file.card :=
          List.map_congr_left fun u hu => card_printed hf hp tab (hmem u hu)
        rw [this, List.map_cons, List.map_cons, List.map_reverse, List.prod_cons, List.prod_cons, List.prod_reverse]
      · intro w hw
        obtain ⟨a, ha, rfl⟩ := List.mem_map.1 hw
        exact hval a (f3 a ha).1 (f3 a ha).2
  · rw [children_printed hf hp]
    exact (List.nodup_map_iff_inj_on (order_nodup hf hp)).2 fun u hu v hv h =>
      symbol_inj hf hp ((mem_order hf hp).1 hu) ((mem_order hf hp).1 hv) h

end Printed

end Nip
