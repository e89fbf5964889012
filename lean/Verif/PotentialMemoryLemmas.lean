import Verif.PotentialMemory
import Verif.VariableMemoryLemmas

/-! # Lemmas about the memory of potentials -/

namespace Nip

open Res Spec

namespace Store

variable {B : Type}

/-- The blocks in use are those of `M`. -/
structure Within (m : Store B) (M : Multiset Nat) : Prop where
  nodup : M.Nodup
  used : ∀ b, (m.blocks b).isSome = true ↔ b ∈ M
  below : ∀ b ∈ M, b < m.next

/-- nothing has changed in the blocks of `M` -/
def SameOn (m m' : Store B) (M : Multiset Nat) : Prop := ∀ b ∈ M, m'.blocks b = m.blocks b

theorem SameOn.trans {m m' m'' : Store B} {M : Multiset Nat} (h : m.SameOn m' M) (h' : m'.SameOn m'' M) : m.SameOn m'' M :=
  fun b hb => (h' b hb).trans (h b hb)

theorem SameOn.mono {m m' : Store B} {M N : Multiset Nat} (h : m.SameOn m' M) (hs : N ≤ M) : m.SameOn m' N :=
  fun b hb => h b (Multiset.mem_of_le hs hb)

theorem SameOn.refl (m : Store B) (M : Multiset Nat) : m.SameOn m M := fun _ _ => rfl

theorem Within.as {m : Store B} {M N : Multiset Nat} (h : m.Within M) (e : M = N) : m.Within N := e ▸ h

theorem Within.alloc {m : Store B} {M : Multiset Nat} (h : m.Within M) (hf : m.fails m.next = false) (b : B) :
    ∃ m', m.alloc b = (.block m.next, m') ∧ m'.Within ({m.next} + M) ∧ m'.blocks m.next = some b ∧ m.SameOn m' M ∧ m'.fails = m.fails ∧ m'.next = m.next + 1 := by
  have hnew : m.next ∉ M := fun hm => lt_irrefl _ (h.below _ hm)
  refine ⟨{ m with blocks := Function.update m.blocks m.next (some b), next := m.next + 1 }, by unfold Store.alloc; rw [hf]; rfl, ⟨?_, ?_, ?_⟩, ?_, ?_, rfl, rfl⟩
  · rw [Multiset.singleton_add]
    exact Multiset.nodup_cons.2 ⟨hnew, h.nodup⟩
  · intro x
    rw [Multiset.singleton_add, Multiset.mem_cons]
    by_cases hx : x = m.next
    · subst hx; simp
    · simp [hx, h.used x]
  · intro x hx
    rw [Multiset.singleton_add, Multiset.mem_cons] at hx
    rcases hx with rfl | hx
    · exact Nat.lt_succ_self _
    · exact Nat.lt_succ_of_lt (h.below x hx)
  · simp
  · intro x hx
    have : x ≠ m.next := fun e => hnew (e ▸ hx)
    simp [this]

theorem Within.allocNull {m : Store B} {M : Multiset Nat} (h : m.Within M) (hf : m.fails m.next = true) (b : B) :
    ∃ m', m.alloc b = (.null, m') ∧ m'.Within M ∧ m.SameOn m' M ∧ m'.fails = m.fails ∧ m'.next = m.next + 1 :=
  ⟨{ m with next := m.next + 1 }, by unfold Store.alloc; rw [hf]; rfl, ⟨h.nodup, h.used, fun b hb => Nat.lt_succ_of_lt (h.below b hb)⟩, fun _ _ => rfl, rfl, rfl⟩

theorem Within.free {m : Store B} {M : Multiset Nat} {a : Nat} (h : m.Within ({a} + M)) :
    ∃ m', m.free (.block a) = ok m' ∧ m'.Within M ∧ m.SameOn m' M ∧ m'.fails = m.fails ∧ m'.next = m.next := by
  have h' : m.Within (a ::ₘ M) := by simpa using h
  have ha := (h'.used a).2 (Multiset.mem_cons_self a M)
  have hn := Multiset.nodup_cons.1 h'.nodup
  obtain ⟨x, hx⟩ := Option.isSome_iff_exists.1 ha
  refine ⟨{ m with blocks := Function.update m.blocks a none }, ?_, ⟨hn.2, ?_, ?_⟩, ?_, rfl, rfl⟩
  · unfold Store.free
    simp only [hx]
  · intro b
    by_cases hb : b = a
    · subst hb; simp [hn.1]
    · have := h'.used b
      simp [hb] at this ⊢
      exact this
  · intro b hb
    exact h'.below b (Multiset.mem_cons_of_mem hb)
  · intro b hb
    have : b ≠ a := fun e => hn.1 (e ▸ hb)
    simp [this]

theorem Within.put {m : Store B} {M : Multiset Nat} {a : Nat} (h : m.Within ({a} + M)) (b : B) :
    ∃ m', m.put (.block a) b = ok m' ∧ m'.Within ({a} + M) ∧ m'.blocks a = some b ∧ m.SameOn m' M ∧ m'.fails = m.fails ∧ m'.next = m.next := by
  have h' : m.Within (a ::ₘ M) := by simpa using h
  have hn := (Multiset.nodup_cons.1 h'.nodup).1
  obtain ⟨x, hx⟩ := Option.isSome_iff_exists.1 ((h.used a).2 (by simp))
  refine ⟨{ m with blocks := Function.update m.blocks a (some b) }, ?_, ⟨h.nodup, fun y => ?_, h.below⟩, by simp, fun y hy => ?_, rfl, rfl⟩
  · unfold Store.put
    simp only [hx]
  · by_cases hy : y = a
    · subst hy; simp
    · have := h.used y
      simp [hy] at this ⊢
      exact this
  · have : y ≠ a := fun e => hn (e ▸ hy)
    simp [this]

theorem Within.count {m : Store B} {M : Multiset Nat} (h : m.Within M) : m.inUse = M.card := by
  have h1 : M.toFinset = ((List.range m.next).filter (fun b => (m.blocks b).isSome)).toFinset := by
    ext b
    simp only [Multiset.mem_toFinset, List.mem_toFinset, List.mem_filter, List.mem_range]
    rw [h.used b]
    exact ⟨fun hb => ⟨h.below b hb, hb⟩, fun hb => hb.2⟩
  unfold Store.inUse
  rw [← List.toFinset_card_of_nodup (List.nodup_range.filter _), ← h1, Multiset.toFinset_card_of_nodup h.nodup]

theorem potentialAt_eq {m : PotMemory} {a : Nat} {c : PotCell} (h : m.blocks a = some (.potential c)) : m.potentialAt (.block a) = ok c := by
  unfold potentialAt Store.get
  simp only [h, ok_bind]

theorem intsAt_eq {m : PotMemory} {a : Nat} {c : List Nat} (h : m.blocks a = some (.ints c)) : m.intsAt (.block a) = ok c := by
  unfold intsAt Store.get
  simp only [h, ok_bind]

theorem realsAt_eq {m : PotMemory} {a n : Nat} (h : m.blocks a = some (.reals n)) : m.realsAt (.block a) = ok n := by
  unfold realsAt Store.get
  simp only [h, ok_bind]

theorem listAt_eq {m : PotMemory} {a : Nat} {c : PairHead} (h : m.blocks a = some (.list c)) : m.listAt (.block a) = ok c := by
  unfold listAt Store.get
  simp only [h, ok_bind]

theorem linkAt_eq {m : PotMemory} {a : Nat} {c : PairLink} (h : m.blocks a = some (.link c)) : m.linkAt (.block a) = ok c := by
  unfold linkAt Store.get
  simp only [h, ok_bind]

theorem textAt_eq {m : PotMemory} {a : Nat} {s : String} (h : m.blocks a = some (.text s)) : m.textAt (.block a) = ok s := by
  unfold textAt Store.get
  simp only [h, ok_bind]

end Store

/-! ### the list of properties -/

/-- a place in the list: its address, those of key and value, and the texts -/
structure PLink where
  addr : Nat
  keyAt : Nat
  valueAt : Nat
  key : String
  value : String

/-- its blocks -/
def PLink.blocks (k : PLink) : Multiset Nat := {k.keyAt} + ({k.valueAt} + {k.addr})

/-- the blocks of several places -/
def plinkBlocks (ls : List PLink) : Multiset Nat := (ls.map PLink.blocks).sum

theorem plinkBlocks_append (l l' : List PLink) : plinkBlocks (l ++ l') = plinkBlocks l + plinkBlocks l' := by simp [plinkBlocks]

theorem plinkBlocks_card (l : List PLink) : (plinkBlocks l).card = 3 * l.length := by
  induction l with
  | nil => rfl
  | cons k l ih =>
    have : plinkBlocks (k :: l) = k.blocks + plinkBlocks l := by simp [plinkBlocks]
    rw [this, Multiset.card_add, ih, List.length_cons]
    simp [PLink.blocks]
    omega

/-- the pointer to place `i` -/
def plinkPtr (ls : List PLink) (i : Nat) : MemPtr :=
  match ls[i]? with
  | some k => .block k.addr
  | none => .null

/-- the pointer to the place before place `i` -/
def prevPtr (ls : List PLink) : Nat → MemPtr
  | 0 => .null
  | i + 1 => plinkPtr ls i

theorem plinkPtr_lt {ls : List PLink} {i : Nat} (h : i < ls.length) : plinkPtr ls i = .block ls[i].addr := by
  unfold plinkPtr
  rw [List.getElem?_eq_getElem h]

theorem plinkPtr_ge {ls : List PLink} {i : Nat} (h : ls.length ≤ i) : plinkPtr ls i = .null := by
  unfold plinkPtr
  rw [List.getElem?_eq_none h]

/-- what is in place `i` -/
def pairLinkOf (ls : List PLink) (i : Nat) (k : PLink) : PairLink :=
  { key := .block k.keyAt, value := .block k.valueAt, fwd := plinkPtr ls (i + 1), bwd := prevPtr ls i }

theorem freePair_spec {m : PotMemory} {M : Multiset Nat} {k : PLink} {c : PairLink} (h : m.Within (k.blocks + M)) (hc : m.blocks k.addr = some (.link c))
    (h1 : c.key = .block k.keyAt) (h2 : c.value = .block k.valueAt) :
    ∃ m', m.freePair (.block k.addr) = ok m' ∧ m'.Within M ∧ m.SameOn m' M ∧ m'.fails = m.fails := by
  have w0 : m.Within ({k.keyAt} + ({k.valueAt} + ({k.addr} + M))) := h.as (by unfold PLink.blocks; abel)
  obtain ⟨m1, a1, w1, s1, f1, _⟩ := w0.free
  obtain ⟨m2, a2, w2, s2, f2, _⟩ := w1.free
  obtain ⟨m3, a3, w3, s3, f3, _⟩ := w2.free
  refine ⟨m3, ?_, w3, ?_, by rw [f3, f2, f1]⟩
  · unfold Store.freePair
    simp only [Store.linkAt_eq hc, ok_bind, h1, h2, a1, a2, a3]
  · intro b hb
    rw [s3 b hb, s2 b (by simp [hb]), s1 b (by simp [hb])]

theorem take_blocks {ls : List PLink} {i : Nat} (h : i < ls.length) : plinkBlocks (ls.take (i + 1)) = ls[i].blocks + plinkBlocks (ls.take i) := by
  rw [List.take_succ_eq_append_getElem h, plinkBlocks_append, add_comm]
  simp [plinkBlocks]

theorem mem_take_blocks {ls : List PLink} {i j : Nat} (hj : j < ls.length) (hij : j < i) : ls[j].addr ∈ plinkBlocks (ls.take i) := by
  have h1 : ls[j] ∈ ls.take i := by
    rw [List.mem_take_iff_getElem]
    exact ⟨j, by omega, rfl⟩
  unfold plinkBlocks
  obtain ⟨l1, l2, e⟩ := List.append_of_mem h1
  rw [e]
  simp [PLink.blocks]

theorem freeBack_spec {ls : List PLink} (i : Nat) (hi : i < ls.length) {m : PotMemory} {M : Multiset Nat} (h : m.Within (plinkBlocks (ls.take (i + 2)) + M))
    (hc : ∀ j (hj : j < ls.length), j < i + 2 → m.blocks ls[j].addr = some (.link (pairLinkOf ls j ls[j]))) :
    ∃ m', m.freeBack (i + 2) (.block ls[i].addr) = ok m' ∧ m'.Within (plinkBlocks (ls.take 1) + M) ∧ m.SameOn m' (plinkBlocks (ls.take 1) + M) ∧ m'.fails = m.fails := by
  induction i generalizing m with
  | zero =>
    have key : ∃ m', (if (plinkPtr ls 1 = .null) then ok m else m.freePair (plinkPtr ls 1)) = ok m' ∧ m'.Within (plinkBlocks (ls.take 1) + M) ∧
        m.SameOn m' (plinkBlocks (ls.take 1) + M) ∧ m'.fails = m.fails := by
      by_cases h1 : 1 < ls.length
      · rw [plinkPtr_lt h1, if_neg (by simp)]
        rw [take_blocks h1, add_assoc] at h
        exact freePair_spec h (hc 1 h1 (by omega)) rfl rfl
      · rw [plinkPtr_ge (by omega), if_pos rfl]
        rw [List.take_of_length_le (by omega)] at h
        rw [List.take_of_length_le (by omega)]
        exact ⟨m, rfl, h, Store.SameOn.refl _ _, rfl⟩
    obtain ⟨m', e1, e2, e3, e4⟩ := key
    refine ⟨m', ?_, e2, e3, e4⟩
    have hc0 := hc 0 hi (by omega)
    have hc0' : m'.blocks ls[0].addr = some (.link (pairLinkOf ls 0 ls[0])) := by
      rw [e3 _ (Multiset.mem_add.2 (Or.inl (mem_take_blocks hi (by omega))))]
      exact hc0
    rw [Store.freeBack]
    simp only [MemPtr.isNull, ok_bind, Bool.false_eq_true, if_false, Store.linkAt_eq hc0]
    have hj : (pairLinkOf ls 0 ls[0]).fwd = plinkPtr ls 1 := rfl
    rw [hj]
    have hnj : plinkPtr ls 1 ≠ .junk := by unfold plinkPtr; split <;> simp
    have hb : (pairLinkOf ls 0 ls[0]).bwd = .null := rfl
    have hend : ∀ x : PotMemory, x.freeBack 1 .null = ok x := fun x => by simp [Store.freeBack, MemPtr.isNull]
    rw [← MemPtr.isNull.eq_def, isNull_ok hnj, ok_bind]
    simp only [decide_eq_true_eq]
    by_cases hx : plinkPtr ls 1 = .null
    · rw [if_pos hx] at e1 ⊢
      rw [hb, hend, e1]
    · rw [if_neg hx] at e1 ⊢
      rw [e1, ok_bind, Store.linkAt_eq hc0', ok_bind, hb, hend]
  | succ i ih =>
    have key : ∃ m', (if (plinkPtr ls (i + 2) = .null) then ok m else m.freePair (plinkPtr ls (i + 2))) = ok m' ∧ m'.Within (plinkBlocks (ls.take (i + 2)) + M) ∧
        m.SameOn m' (plinkBlocks (ls.take (i + 2)) + M) ∧ m'.fails = m.fails := by
      by_cases h1 : i + 2 < ls.length
      · rw [plinkPtr_lt h1, if_neg (by simp)]
        rw [take_blocks h1, add_assoc] at h
        exact freePair_spec h (hc _ h1 (by omega)) rfl rfl
      · rw [plinkPtr_ge (by omega), if_pos rfl]
        rw [List.take_of_length_le (by omega)] at h
        rw [List.take_of_length_le (by omega)]
        exact ⟨m, rfl, h, Store.SameOn.refl _ _, rfl⟩
    obtain ⟨m', e1, e2, e3, e4⟩ := key
    have hc0 := hc (i + 1) hi (by omega)
    have hc' : ∀ j (hj : j < ls.length), j < i + 2 → m'.blocks ls[j].addr = some (.link (pairLinkOf ls j ls[j])) := by
      intro j hj hji
      rw [e3 _ (Multiset.mem_add.2 (Or.inl (mem_take_blocks hj hji)))]
      exact hc j hj (by omega)
    obtain ⟨m'', g1, g2, g3, g4⟩ := ih (by omega) e2 hc'
    refine ⟨m'', ?_, g2, ?_, g4.trans e4⟩
    · rw [Store.freeBack]
      simp only [MemPtr.isNull, ok_bind, Bool.false_eq_true, if_false, Store.linkAt_eq hc0]
      have hj : (pairLinkOf ls (i + 1) ls[i + 1]).fwd = plinkPtr ls (i + 2) := rfl
      rw [hj]
      have hnj : plinkPtr ls (i + 2) ≠ .junk := by unfold plinkPtr; split <;> simp
      have hb : (pairLinkOf ls (i + 1) ls[i + 1]).bwd = .block ls[i].addr := plinkPtr_lt (by omega)
      rw [← MemPtr.isNull.eq_def, isNull_ok hnj, ok_bind]
      simp only [decide_eq_true_eq]
      by_cases hx : plinkPtr ls (i + 2) = .null
      · rw [if_pos hx] at e1 ⊢
        cases e1
        rw [hb]
        exact g1
      · rw [if_neg hx] at e1 ⊢
        rw [e1, ok_bind, Store.linkAt_eq (hc' (i + 1) hi (by omega)), ok_bind, hb]
        exact g1
    · intro b hb
      rw [g3 b hb]
      refine e3 b ?_
      rcases Multiset.mem_add.1 hb with hb | hb
      · refine Multiset.mem_add.2 (Or.inl ?_)
        have : ls.take (i + 2) = ls.take 1 ++ (ls.take (i + 2)).drop 1 := by
          have := List.take_append_drop 1 (ls.take (i + 2))
          rw [List.take_take] at this
          rw [show min 1 (i + 2) = 1 by omega] at this
          exact this.symm
        rw [this, plinkBlocks_append]
        exact Multiset.mem_add.2 (Or.inl hb)
      · exact Multiset.mem_add.2 (Or.inr hb)

/-- the list at address `l` -/
structure PairsGood (m : PotMemory) (l : Nat) (ls : List PLink) : Prop where
  head : m.blocks l = some (.list { length := ls.length, first := plinkPtr ls 0, last := prevPtr ls ls.length })
  link : ∀ j (hj : j < ls.length), m.blocks ls[j].addr = some (.link (pairLinkOf ls j ls[j]))
  key : ∀ k ∈ ls, m.blocks k.keyAt = some (.text k.key)
  value : ∀ k ∈ ls, m.blocks k.valueAt = some (.text k.value)

theorem mem_plinkBlocks {ls : List PLink} {k : PLink} (h : k ∈ ls) : k.addr ∈ plinkBlocks ls ∧ k.keyAt ∈ plinkBlocks ls ∧ k.valueAt ∈ plinkBlocks ls := by
  obtain ⟨l1, l2, rfl⟩ := List.append_of_mem h
  unfold plinkBlocks
  simp [PLink.blocks]

theorem PairsGood.keep {m m' : PotMemory} {l : Nat} {ls : List PLink} (h : PairsGood m l ls) (hs : m.SameOn m' ({l} + plinkBlocks ls)) : PairsGood m' l ls := by
  refine ⟨?_, fun j hj => ?_, fun k hk => ?_, fun k hk => ?_⟩
  · rw [hs l (by simp)]; exact h.head
  · rw [hs _ (Multiset.mem_add.2 (Or.inr (mem_plinkBlocks (List.getElem_mem hj)).1))]; exact h.link j hj
  · rw [hs _ (Multiset.mem_add.2 (Or.inr (mem_plinkBlocks hk).2.1))]; exact h.key k hk
  · rw [hs _ (Multiset.mem_add.2 (Or.inr (mem_plinkBlocks hk).2.2))]; exact h.value k hk

theorem freePairs_spec {m : PotMemory} {M : Multiset Nat} {l : Nat} {ls : List PLink} (h : m.Within ({l} + (plinkBlocks ls + M))) (hg : PairsGood m l ls) :
    ∃ m', m.freePairs (.block l) = ok m' ∧ m'.Within M ∧ m.SameOn m' M ∧ m'.fails = m.fails := by
  obtain ⟨m1, a1, w1, b1, s1, f1, _⟩ := h.put (.list { length := ls.length, first := plinkPtr ls 0, last := .null })
  have hlink : ∀ j (hj : j < ls.length), m1.blocks ls[j].addr = some (.link (pairLinkOf ls j ls[j])) := by
    intro j hj
    rw [s1 _ (Multiset.mem_add.2 (Or.inl (mem_plinkBlocks (List.getElem_mem hj)).1))]
    exact hg.link j hj
  have key : ∃ m2, m1.freeBack (ls.length + 1) (prevPtr ls ls.length) = ok m2 ∧ m2.Within (plinkBlocks (ls.take 1) + ({l} + M)) ∧ m1.SameOn m2 (plinkBlocks (ls.take 1) + ({l} + M)) ∧ m2.fails = m1.fails := by
    have w1' : m1.Within (plinkBlocks ls + ({l} + M)) := w1.as (by abel)
    cases hn : ls.length with
    | zero =>
      have hnil := List.length_eq_zero_iff.1 hn
      subst hnil
      exact ⟨m1, by simp [prevPtr, Store.freeBack, MemPtr.isNull], w1', Store.SameOn.refl _ _, rfl⟩
    | succ n =>
      have := freeBack_spec (ls := ls) n (by omega) (M := {l} + M) (m := m1) (by rw [List.take_of_length_le (by omega)]; exact w1') (fun j hj _ => hlink j hj)
      have hp : prevPtr ls (n + 1) = .block ls[n].addr := plinkPtr_lt (by omega)
      rw [hp]
      exact this
  obtain ⟨m2, a2, w2, s2, f2⟩ := key
  have key2 : ∃ m3, (if (plinkPtr ls 0 = .null) then ok m2 else m2.freePair (plinkPtr ls 0)) = ok m3 ∧ m3.Within ({l} + M) ∧ m2.SameOn m3 ({l} + M) ∧ m3.fails = m2.fails := by
    by_cases h0 : 0 < ls.length
    · rw [plinkPtr_lt h0, if_neg (by simp)]
      have w2' := w2
      rw [take_blocks h0] at w2'
      have w2'' : m2.Within (ls[0].blocks + ({l} + M)) := w2'.as (by simp [plinkBlocks])
      refine freePair_spec w2'' (c := pairLinkOf ls 0 ls[0]) ?_ rfl rfl
      rw [s2 _ (Multiset.mem_add.2 (Or.inl (mem_take_blocks h0 (by omega))))]
      exact hlink 0 h0
    · rw [plinkPtr_ge (by omega), if_pos rfl]
      have hnil := List.length_eq_zero_iff.1 (show ls.length = 0 by omega)
      subst hnil
      exact ⟨m2, rfl, w2.as (by simp [plinkBlocks]), Store.SameOn.refl _ _, rfl⟩
  obtain ⟨m3, a3, w3, s3, f3⟩ := key2
  obtain ⟨m4, a4, w4, b4, s4, f4, _⟩ := w3.put (.list { length := 0, first := .null, last := .null })
  obtain ⟨m5, a5, w5, s5, f5, _⟩ := w4.free
  refine ⟨m5, ?_, w5, ?_, by rw [f5, f4, f3, f2, f1]⟩
  · unfold Store.freePairs
    have hnj : plinkPtr ls 0 ≠ .junk := by unfold plinkPtr; split <;> simp
    have hl : MemPtr.isNull (.block l) = ok false := rfl
    rw [hl, ok_bind]
    simp only [Bool.false_eq_true, if_false]
    rw [Store.listAt_eq hg.head, ok_bind]
    simp only []
    rw [a1, ok_bind, a2, ok_bind, isNull_ok hnj, ok_bind]
    simp only [decide_eq_true_eq]
    by_cases hx : plinkPtr ls 0 = .null
    · rw [if_pos hx] at a3 ⊢
      rw [a3, ok_bind, a4, ok_bind, a5]
    · rw [if_neg hx] at a3 ⊢
      rw [a3, ok_bind, a4, ok_bind, a5]
  · intro b hb
    rw [s5 b hb, s4 b hb, s3 b (by simp [hb]), s2 b (by simp [hb]), s1 b (by simp [hb])]

/-! ### one potential -/

/-- what is in a potential -/
structure PEntry where
  addr : Nat
  cardAt : Nat
  tempAt : Nat
  dataAt : Nat
  listAt : Nat
  dim : Nat
  size : Nat
  row : List Nat
  links : List PLink

/-- its blocks -/
def PEntry.blocks (e : PEntry) : Multiset Nat := {e.addr} + ({e.cardAt} + ({e.tempAt} + ({e.dataAt} + ({e.listAt} + plinkBlocks e.links))))

/-- the structure -/
def PEntry.cell (e : PEntry) : PotCell :=
  { dim := e.dim, size := e.size, card := .block e.cardAt, temp := .block e.tempAt, data := .block e.dataAt, properties := .block e.listAt }

/-- the potential is as it should be -/
structure PEntry.Good (e : PEntry) (m : PotMemory) (ps : List (String × String)) : Prop where
  cell : m.blocks e.addr = some (.potential e.cell)
  row : m.blocks e.cardAt = some (.ints e.row)
  dim : e.dim ≤ e.row.length
  size : (e.row.take e.dim).prod = e.size
  data : m.blocks e.dataAt = some (.reals e.size)
  pairs : PairsGood m e.listAt e.links
  props : e.links.map (fun k => (k.key, k.value)) = ps

theorem PEntry.Good.count {e : PEntry} {m : PotMemory} {ps : List (String × String)} (h : e.Good m ps) : e.blocks.card = (PotRecord.here ps).blocks := by
  unfold PEntry.blocks PotRecord.blocks
  rw [← h.props]
  simp only [Multiset.card_add, Multiset.card_singleton, plinkBlocks_card, List.length_map]
  omega

theorem PEntry.Good.keep {e : PEntry} {m m' : PotMemory} {ps : List (String × String)} (h : e.Good m ps) (hs : m.SameOn m' e.blocks) : e.Good m' ps := by
  refine { h with cell := ?_, row := ?_, data := ?_, pairs := ?_ }
  · rw [hs _ (by simp [PEntry.blocks])]; exact h.cell
  · rw [hs _ (by simp [PEntry.blocks])]; exact h.row
  · rw [hs _ (by simp [PEntry.blocks])]; exact h.data
  · refine h.pairs.keep fun b hb => hs b ?_
    unfold PEntry.blocks
    simp only [Multiset.mem_add] at hb ⊢
    tauto

theorem freePotential_spec {m : PotMemory} {M : Multiset Nat} {e : PEntry} {ps : List (String × String)} (h : m.Within (e.blocks + M)) (he : e.Good m ps) :
    ∃ m', m.freePotential (.block e.addr) = ok m' ∧ m'.Within M ∧ m.SameOn m' M ∧ m'.fails = m.fails := by
  have w0 : m.Within ({e.listAt} + (plinkBlocks e.links + ({e.cardAt} + ({e.tempAt} + ({e.dataAt} + ({e.addr} + M)))))) := h.as (by unfold PEntry.blocks; abel)
  obtain ⟨m1, a1, w1, s1, f1⟩ := freePairs_spec w0 he.pairs
  obtain ⟨m2, a2, w2, s2, f2, _⟩ := w1.free
  obtain ⟨m3, a3, w3, s3, f3, _⟩ := w2.free
  obtain ⟨m4, a4, w4, s4, f4, _⟩ := w3.free
  obtain ⟨m5, a5, w5, s5, f5, _⟩ := w4.free
  refine ⟨m5, ?_, w5, ?_, by rw [f5, f4, f3, f2, f1]⟩
  · unfold Store.freePotential
    have hl : MemPtr.isNull (.block e.addr) = ok false := rfl
    rw [hl, ok_bind]
    simp only [Bool.false_eq_true, if_false]
    rw [Store.potentialAt_eq he.cell, ok_bind]
    simp only [PEntry.cell]
    rw [a1, ok_bind, a2, ok_bind, a3, ok_bind, a4, ok_bind, a5]
  · intro b hb
    rw [s5 b hb, s4 b (by simp [hb]), s3 b (by simp [hb]), s2 b (by simp [hb]), s1 b (by simp [hb])]

theorem fillCard_spec {card : List Nat} {d : Nat} (hd : d ≤ card.length) : ∃ row : List Nat,
    Store.fillCard card d (List.replicate (if 0 < d then d else 1) 0) = ok ((card.take d).prod, row) ∧ d ≤ row.length ∧ row.take d = card.take d := by
  have hlen : d ≤ (List.replicate (if 0 < d then d else 1) (0 : Nat)).length := by
    rw [List.length_replicate]; split <;> omega
  have hpos : 0 < (List.replicate (if 0 < d then d else 1) (0 : Nat)).length := by
    rw [List.length_replicate]; split <;> omega
  generalize hz : List.replicate (if 0 < d then d else 1) (0 : Nat) = z at hlen hpos ⊢
  obtain ⟨r, e1, e2, e3, e4⟩ := loop_inv (n := d) (s := (1, z)) (f := fun i (st : Nat × List Nat) => do
      let x ← rd card i
      let row ← wr st.2 i x
      ok (st.1 * x, row)) (fun i st => st.1 = (card.take i).prod ∧ st.2.length = z.length ∧ st.2.take i = card.take i)
    ⟨by simp, rfl, by simp⟩ (by
      rintro i hi ⟨p, row⟩ ⟨g1, g2, g3⟩
      simp only at g1 g2 g3
      have hic : i < card.length := by omega
      have hir : i < row.length := by omega
      refine ⟨(p * card[i], row.set i card[i]), ?_, ?_, ?_, ?_⟩
      · rw [rd_lt hic, ok_bind, wr_lt hir, ok_bind]
      · simp only
        rw [List.take_succ_eq_append_getElem hic, List.prod_append, g1]
        simp
      · simp [g2]
      · simp only
        rw [List.take_succ_eq_append_getElem (by simpa using hir), List.take_succ_eq_append_getElem hic, List.take_set_of_le (by omega), g3]
        simp)
  unfold Store.fillCard
  rw [e1, ok_bind]
  by_cases h0 : d = 0
  · subst h0
    refine ⟨r.2.set 0 1, ?_, by simp, by simp⟩
    rw [if_pos rfl, wr_lt (by omega), ok_bind, e2]
  · refine ⟨r.2, ?_, by omega, e4⟩
    rw [if_neg h0, ok_bind, e2]

theorem newPotential_spec {m : PotMemory} {M : Multiset Nat} (h : m.Within M) (hf : ∀ k, m.fails k = false) {card : List Nat} {dimension : Int} (h0 : ¬ dimension < 0)
    (hd : dimension.toNat ≤ card.length) {data : Option Nat} (hn : ∀ n, data = some n → (card.take dimension.toNat).prod ≤ n) :
    ∃ (e : PEntry) (m' : PotMemory), m.newPotential card dimension data = ok (.block e.addr, m') ∧ m'.Within (e.blocks + M) ∧ m.SameOn m' M ∧ m'.fails = m.fails ∧ e.Good m' [] := by
  obtain ⟨row, r1, r2, r3⟩ := fillCard_spec hd
  generalize hz : List.replicate (if 0 < dimension.toNat then dimension.toNat else 1) (0 : Nat) = z at r1
  obtain ⟨m1, a1, w1, b1, s1, f1, _⟩ := h.alloc (hf _) (.potential { dim := 0, size := 0, card := .junk, temp := .junk, data := .junk, properties := .junk })
  generalize hp : m.next = p at a1 w1 b1
  obtain ⟨m2, a2, w2, b2, s2, f2, _⟩ := w1.alloc (by rw [f1]; exact hf _) (.ints z)
  generalize hc : m1.next = c at a2 w2 b2
  obtain ⟨m3, a3, w3, b3, s3, f3, _⟩ := w2.alloc (by rw [f2, f1]; exact hf _) (.ints z)
  generalize ht : m2.next = t at a3 w3 b3
  have w3' : m3.Within ({p} + ({t} + ({c} + M))) := w3.as (by abel)
  obtain ⟨m4, a4, w4, b4, s4, f4, _⟩ := w3'.put (.potential { dim := 0, size := 0, card := .block c, temp := .block t, data := .junk, properties := .junk })
  have w4' : m4.Within ({c} + ({p} + ({t} + M))) := w4.as (by abel)
  obtain ⟨m5, a5, w5, b5, s5, f5, _⟩ := w4'.put (.ints row)
  obtain ⟨m6, a6, w6, b6, s6, f6, _⟩ := w5.alloc (by rw [f5, f4, f3, f2, f1]; exact hf _) (.reals (card.take dimension.toNat).prod)
  generalize ha : m5.next = a at a6 w6 b6
  have w6' : m6.Within ({p} + ({a} + ({c} + ({t} + M)))) := w6.as (by abel)
  obtain ⟨m7, a7, w7, b7, s7, f7, _⟩ := w6'.put (.potential { dim := dimension.toNat, size := (card.take dimension.toNat).prod, card := .block c, temp := .block t, data := .block a, properties := .junk })
  obtain ⟨m8, a8, w8, b8, s8, f8, _⟩ := w7.alloc (by rw [f7, f6, f5, f4, f3, f2, f1]; exact hf _) (.list { length := 0, first := .null, last := .null })
  generalize hl : m7.next = l at a8 w8 b8
  have w8' : m8.Within ({p} + ({l} + ({a} + ({c} + ({t} + M))))) := w8.as (by abel)
  obtain ⟨m9, a9, w9, b9, s9, f9, _⟩ := w8'.put (.potential { dim := dimension.toNat, size := (card.take dimension.toNat).prod, card := .block c, temp := .block t, data := .block a, properties := .block l })
  refine ⟨{ addr := p, cardAt := c, tempAt := t, dataAt := a, listAt := l, dim := dimension.toNat, size := (card.take dimension.toNat).prod, row := row, links := [] }, m9, ?_, ?_, ?_,
    by rw [f9, f8, f7, f6, f5, f4, f3, f2, f1], ?_⟩
  · unfold Store.newPotential
    have hdata : (data.isSome && decide (data.getD 0 < (card.take dimension.toNat).prod)) = false := by
      cases data with
      | none => rfl
      | some n => simpa using hn n rfl
    simp only [h0, if_false, hz, a1, a2, a3, a4, r1, a5, a6, a7, a8, a9, hdata, ok_bind, reduceCtorEq, beq_iff_eq, Bool.false_eq_true, Bool.or_false,
      show ∀ x : Nat, (MemPtr.block x == MemPtr.null) = false from fun _ => rfl]
  · refine w9.as ?_
    simp only [PEntry.blocks, plinkBlocks, List.map_nil, List.sum_nil]
    abel
  · intro b hb
    rw [s9 b (by simp [hb]), s8 b (by simp [hb]), s7 b (by simp [hb]), s6 b (by simp [hb]), s5 b (by simp [hb]), s4 b (by simp [hb]), s3 b (by simp [hb]), s2 b (by simp [hb]), s1 b hb]
  · refine ⟨b9, ?_, r2, by simp only; rw [r3], ?_, ⟨?_, by simp, by simp, by simp⟩, rfl⟩
    · simp only
      rw [s9 c (by simp), s8 c (by simp), s7 c (by simp), s6 c (by simp)]
      exact b5
    · simp only
      rw [s9 a (by simp), s8 a (by simp), s7 a (by simp)]
      exact b6
    · simp only
      rw [s9 l (by simp)]
      exact b8

theorem copyPotential_spec {m : PotMemory} {M : Multiset Nat} (h : m.Within M) (hf : ∀ k, m.fails k = false) {e : PEntry} {ps : List (String × String)} (he : e.Good m ps) :
    ∃ (e' : PEntry) (m' : PotMemory), m.copyPotential (.block e.addr) = ok (.block e'.addr, m') ∧ m'.Within (e'.blocks + M) ∧ m.SameOn m' M ∧ m'.fails = m.fails ∧ e'.Good m' [] := by
  obtain ⟨e', m', a1, a2⟩ := newPotential_spec h hf (dimension := (e.dim : Int)) (card := e.row) (data := some e.size) (by omega) (by simpa using he.dim)
    (by rintro n ⟨⟩; simp [he.size])
  refine ⟨e', m', ?_, a2⟩
  unfold Store.copyPotential
  have hl : MemPtr.isNull (.block e.addr) = ok false := rfl
  rw [hl, ok_bind]
  simp only [Bool.false_eq_true, if_false]
  rw [Store.potentialAt_eq he.cell, ok_bind]
  simp only [PEntry.cell]
  rw [Store.intsAt_eq he.row, ok_bind, Store.realsAt_eq he.data, ok_bind, a1]

/-! ### properties -/

theorem prevPtr_append (ls : List PLink) (x : PLink) {j : Nat} (hj : j ≤ ls.length) : prevPtr (ls ++ [x]) j = prevPtr ls j := by
  cases j with
  | zero => rfl
  | succ j =>
    show plinkPtr (ls ++ [x]) j = plinkPtr ls j
    unfold plinkPtr
    rw [List.getElem?_append_left (by omega)]

theorem pairLinkOf_append {ls : List PLink} {x : PLink} {j : Nat} (hj : j + 1 < ls.length) (k : PLink) : pairLinkOf (ls ++ [x]) j k = pairLinkOf ls j k := by
  unfold pairLinkOf
  have h1 : plinkPtr (ls ++ [x]) (j + 1) = plinkPtr ls (j + 1) := by
    unfold plinkPtr
    rw [List.getElem?_append_left hj]
  rw [h1, prevPtr_append _ _ (by omega)]

theorem plinkPtr_append_last (ls : List PLink) (x : PLink) : plinkPtr (ls ++ [x]) ls.length = .block x.addr := by
  unfold plinkPtr
  simp

theorem appendPair_spec {m : PotMemory} {M : Multiset Nat} {l ka va : Nat} {ls : List PLink} {key value : String} (h : m.Within ({ka} + ({va} + ({l} + (plinkBlocks ls + M)))))
    (hg : PairsGood m l ls) (hk : m.blocks ka = some (.text key)) (hv : m.blocks va = some (.text value)) (hf : m.fails m.next = false) :
    ∃ (x : PLink) (m' : PotMemory), m.appendPair (.block l) (.block ka) (.block va) = ok (false, m') ∧ m'.Within ({l} + (plinkBlocks (ls ++ [x]) + M)) ∧ m.SameOn m' M ∧ m'.fails = m.fails ∧
      PairsGood m' l (ls ++ [x]) ∧ x.key = key ∧ x.value = value := by
  obtain ⟨m1, a1, w1, b1, s1, f1, _⟩ := h.alloc hf (.link { key := .junk, value := .junk, fwd := .junk, bwd := .junk })
  generalize m.next = n at a1 w1 b1
  obtain ⟨m2, a2, w2, b2, s2, f2, _⟩ := w1.put (.link { key := .block ka, value := .block va, fwd := .null, bwd := prevPtr ls ls.length })
  have hhead : m1.blocks l = some (.list { length := ls.length, first := plinkPtr ls 0, last := prevPtr ls ls.length }) := by
    rw [s1 l (by simp)]; exact hg.head
  have hnj : plinkPtr ls 0 ≠ .junk := by unfold plinkPtr; split <;> simp
  have g2 : PairsGood m2 l ls := (hg.keep (s1.mono (by
    rw [show ({ka} + ({va} + ({l} + (plinkBlocks ls + M))) : Multiset Nat) = ({l} + plinkBlocks ls) + ({ka} + ({va} + M)) by abel]
    exact Multiset.le_add_right _ _))).keep (s2.mono (by
    rw [show ({ka} + ({va} + ({l} + (plinkBlocks ls + M))) : Multiset Nat) = ({l} + plinkBlocks ls) + ({ka} + ({va} + M)) by abel]
    exact Multiset.le_add_right _ _))
  have hk2 : m2.blocks ka = some (.text key) := by rw [s2 ka (by simp), s1 ka (by simp)]; exact hk
  have hv2 : m2.blocks va = some (.text value) := by rw [s2 va (by simp), s1 va (by simp)]; exact hv
  rcases List.eq_nil_or_concat ls with rfl | ⟨init, z, rfl⟩
  · have w2' : m2.Within ({l} + ({n} + ({ka} + ({va} + M)))) := w2.as (by simp only [plinkBlocks, List.map_nil, List.sum_nil]; abel)
    obtain ⟨m4, a4, w4, b4, s4, f4, _⟩ := w2'.put (.list { length := 1, first := .block n, last := .block n })
    refine ⟨⟨n, ka, va, key, value⟩, m4, ?_, ?_, ?_, by rw [f4, f2, f1], ⟨?_, ?_, ?_, ?_⟩, rfl, rfl⟩
    · unfold Store.appendPair
      simp only [MemPtr.isNull, ok_bind, Bool.false_eq_true, if_false, Bool.or_false, a1, show (MemPtr.block n == MemPtr.null) = false from rfl]
      rw [Store.listAt_eq hhead, ok_bind]
      simp only []
      rw [a2, ok_bind]
      simp only [plinkPtr, List.getElem?_nil, if_true, ok_bind, List.length_nil, Nat.zero_add]
      rw [a4, ok_bind]
    · refine w4.as ?_
      simp only [plinkBlocks, List.nil_append, List.map_cons, List.map_nil, List.sum_cons, List.sum_nil, PLink.blocks]
      abel
    · intro b hb
      rw [s4 b (by simp [hb]), s2 b (by simp [hb]), s1 b (by simp [hb])]
    · exact b4
    · intro j hj
      have hj0 : j = 0 := by simp at hj; omega
      subst hj0
      simp only [List.nil_append, List.getElem_cons_zero]
      rw [s4 n (by simp), b2]
      rfl
    · intro k hk'
      simp only [List.nil_append, List.mem_singleton] at hk'
      subst hk'
      rw [s4 _ (by simp)]
      exact hk2
    · intro k hk'
      simp only [List.nil_append, List.mem_singleton] at hk'
      subst hk'
      rw [s4 _ (by simp)]
      exact hv2
  · rw [List.concat_eq_append] at *
    have hlen : (init ++ [z]).length = init.length + 1 := by simp
    have hlast : prevPtr (init ++ [z]) (init ++ [z]).length = .block z.addr := by
      rw [hlen]
      exact plinkPtr_append_last init z
    have hzb : plinkBlocks (init ++ [z]) = plinkBlocks init + ({z.keyAt} + ({z.valueAt} + {z.addr})) := by
      rw [plinkBlocks_append]; simp [plinkBlocks, PLink.blocks]
    have hz2 : m2.blocks z.addr = some (.link (pairLinkOf (init ++ [z]) init.length z)) := by
      have := g2.link init.length (by simp)
      simpa using this
    have w2' : m2.Within ({z.addr} + ({l} + ({n} + ({ka} + ({va} + (plinkBlocks init + ({z.keyAt} + ({z.valueAt} + M)))))))) := w2.as (by rw [hzb]; abel)
    obtain ⟨m3, a3, w3, b3, s3, f3, _⟩ := w2'.put (.link { pairLinkOf (init ++ [z]) init.length z with fwd := .block n })
    have w3' : m3.Within ({l} + ({z.addr} + ({n} + ({ka} + ({va} + (plinkBlocks init + ({z.keyAt} + ({z.valueAt} + M)))))))) := w3.as (by abel)
    have hfirst : ∃ q, plinkPtr (init ++ [z]) 0 = .block q := by
      rw [plinkPtr_lt (by simp)]
      exact ⟨_, rfl⟩
    obtain ⟨q, hq⟩ := hfirst
    obtain ⟨m4, a4, w4, b4, s4, f4, _⟩ := w3'.put (.list { length := (init ++ [z]).length + 1, first := .block q, last := .block n })
    have hin : ∀ k ∈ init, k.addr ∈ plinkBlocks init ∧ k.keyAt ∈ plinkBlocks init ∧ k.valueAt ∈ plinkBlocks init := fun k hk => mem_plinkBlocks hk
    refine ⟨⟨n, ka, va, key, value⟩, m4, ?_, ?_, ?_, by rw [f4, f3, f2, f1], ⟨?_, ?_, ?_, ?_⟩, rfl, rfl⟩
    · unfold Store.appendPair
      simp only [MemPtr.isNull, ok_bind, Bool.false_eq_true, if_false, Bool.or_false, a1, show (MemPtr.block n == MemPtr.null) = false from rfl]
      rw [Store.listAt_eq hhead, ok_bind]
      simp only []
      rw [a2, ok_bind]
      simp only [hq, hlast, ok_bind, Bool.false_eq_true, if_false, Store.linkAt_eq hz2, a3, a4]
    · refine w4.as ?_
      rw [plinkBlocks_append, hzb]
      simp only [plinkBlocks, List.map_cons, List.map_nil, List.sum_cons, List.sum_nil, PLink.blocks]
      abel
    · intro b hb
      rw [s4 b (by simp [hb]), s3 b (by simp [hb]), s2 b (by simp [hb]), s1 b (by simp [hb])]
    · rw [b4]
      have e1 : plinkPtr (init ++ [z] ++ [⟨n, ka, va, key, value⟩]) 0 = .block q := by
        rw [← hq]
        unfold plinkPtr
        rw [List.getElem?_append_left (by simp)]
      have e2 : prevPtr (init ++ [z] ++ [⟨n, ka, va, key, value⟩]) (init ++ [z] ++ [(⟨n, ka, va, key, value⟩ : PLink)]).length = .block n := by
        rw [List.length_append, List.length_singleton]
        exact plinkPtr_append_last (init ++ [z]) ⟨n, ka, va, key, value⟩
      rw [e1, e2]
      simp
    · intro j hj
      rw [List.length_append, List.length_append, List.length_singleton, List.length_singleton] at hj
      rcases Nat.lt_trichotomy j init.length with hji | rfl | hji
      · have hjz : j < (init ++ [z]).length := by omega
        have e1 : (init ++ [z] ++ [(⟨n, ka, va, key, value⟩ : PLink)])[j] = init[j] := by
          rw [List.getElem_append_left hjz, List.getElem_append_left hji]
        rw [e1, pairLinkOf_append (by omega)]
        have hm := (hin _ (List.getElem_mem hji)).1
        rw [s4 _ (by simp [hm]), s3 _ (by simp [hm])]
        have := g2.link j hjz
        rwa [List.getElem_append_left hji] at this
      · have e1 : (init ++ [z] ++ [(⟨n, ka, va, key, value⟩ : PLink)])[init.length] = z := by
          rw [List.getElem_append_left (by simp)]
          simp
        rw [e1, s4 _ (by simp), b3]
        unfold pairLinkOf
        have e2 : plinkPtr (init ++ [z] ++ [⟨n, ka, va, key, value⟩]) (init.length + 1) = .block n := by
          have := plinkPtr_append_last (init ++ [z]) ⟨n, ka, va, key, value⟩
          rwa [hlen] at this
        rw [e2, prevPtr_append (init ++ [z]) _ (by omega)]
      · have hj2 : j = init.length + 1 := by omega
        subst hj2
        have e1 : (init ++ [z] ++ [(⟨n, ka, va, key, value⟩ : PLink)])[init.length + 1] = ⟨n, ka, va, key, value⟩ := by
          rw [List.getElem_append_right (by simp)]
          simp
        rw [e1]
        simp only
        rw [s4 _ (by simp), s3 _ (by simp), b2]
        unfold pairLinkOf
        rw [plinkPtr_ge (by simp), prevPtr_append (init ++ [z]) _ (by omega), hlen]
    · intro k hk'
      simp only [List.append_assoc, List.mem_append, List.mem_cons, List.not_mem_nil, or_false] at hk'
      rcases hk' with hk' | rfl | rfl
      · have hm := (hin k hk').2.1
        rw [s4 _ (by simp [hm]), s3 _ (by simp [hm])]
        exact g2.key k (by simp [hk'])
      · rw [s4 _ (by simp), s3 _ (by simp)]
        exact g2.key _ (by simp)
      · rw [s4 _ (by simp), s3 _ (by simp)]
        exact hk2
    · intro k hk'
      simp only [List.append_assoc, List.mem_append, List.mem_cons, List.not_mem_nil, or_false] at hk'
      rcases hk' with hk' | rfl | rfl
      · have hm := (hin k hk').2.2
        rw [s4 _ (by simp [hm]), s3 _ (by simp [hm])]
        exact g2.value k (by simp [hk'])
      · rw [s4 _ (by simp), s3 _ (by simp)]
        exact g2.value _ (by simp)
      · rw [s4 _ (by simp), s3 _ (by simp)]
        exact hv2

theorem writeProperty_spec {m : PotMemory} {M : Multiset Nat} {e : PEntry} {ps : List (String × String)} (h : m.Within (e.blocks + M)) (he : e.Good m ps) (hf : ∀ k, m.fails k = false)
    (key value : String) : ∃ (e' : PEntry) (m' : PotMemory), m.writeProperty (.block e.addr) (some key) (some value) = ok m' ∧ m'.Within (e'.blocks + M) ∧ m.SameOn m' M ∧ m'.fails = m.fails ∧
      e'.addr = e.addr ∧ e'.Good m' (ps ++ [(key, value)]) := by
  obtain ⟨m1, a1, w1, b1, s1, f1, _⟩ := h.alloc (hf _) (.text key)
  generalize m.next = ka at a1 w1 b1
  obtain ⟨m2, a2, w2, b2, s2, f2, _⟩ := w1.alloc (by rw [f1]; exact hf _) (.text value)
  generalize m1.next = va at a2 w2 b2
  have g2 : e.Good m2 ps := (he.keep (s1.mono (Multiset.le_add_right _ _))).keep (s2.mono (by
    rw [show ({ka} + (e.blocks + M) : Multiset Nat) = e.blocks + ({ka} + M) by abel]
    exact Multiset.le_add_right _ _))
  have w2' : m2.Within ({ka} + ({va} + ({e.listAt} + (plinkBlocks e.links + ({e.addr} + ({e.cardAt} + ({e.tempAt} + ({e.dataAt} + M)))))))) := w2.as (by unfold PEntry.blocks; abel)
  obtain ⟨x, m3, a3, w3, s3, f3, g3, hx1, hx2⟩ := appendPair_spec w2' g2.pairs (by rw [s2 ka (by simp)]; exact b1) b2 (by rw [f2, f1]; exact hf _)
  refine ⟨{ e with links := e.links ++ [x] }, m3, ?_, ?_, ?_, by rw [f3, f2, f1], rfl, ?_⟩
  · unfold Store.writeProperty Store.newText Store.setProperty
    simp only [a1, a2, MemPtr.isNull, ok_bind, Bool.false_eq_true, if_false, Bool.or_false, Store.potentialAt_eq g2.cell]
    have : e.cell.properties = .block e.listAt := rfl
    rw [this, a3, ok_bind]
    simp
  · refine w3.as ?_
    simp only [PEntry.blocks]
    abel
  · intro b hb
    rw [s3 b (by simp [hb]), s2 b (by simp [hb]), s1 b (by simp [hb])]
  · refine ⟨?_, ?_, g2.dim, g2.size, ?_, g3, ?_⟩
    · rw [s3 _ (by simp)]; exact g2.cell
    · rw [s3 _ (by simp)]; exact g2.row
    · rw [s3 _ (by simp)]; exact g2.data
    · simp only [List.map_append, List.map_cons, List.map_nil, g2.props, hx1, hx2]

/-- The potential does not take the texts (it is NULL, or one of the texts is NULL): the caller frees them. -/
theorem writeProperty_refused {m : PotMemory} {M : Multiset Nat} {p : MemPtr} (h : m.Within M) (hf : ∀ k, m.fails k = false) (hp : p ≠ .junk) (key value : Option String)
    (hn : p = .null ∨ key = none ∨ value = none) :
    ∃ m' : PotMemory, m.writeProperty p key value = ok m' ∧ m'.Within M ∧ m.SameOn m' M ∧ m'.fails = m.fails := by
  have text : ∀ (m : PotMemory) (M : Multiset Nat), m.Within M → (∀ k, m.fails k = false) → ∀ s : Option String, ∃ (q : MemPtr) (m' : PotMemory), m.newText s = (q, m') ∧ q ≠ .junk ∧
      (q = .null ↔ s = none) ∧ m'.Within (q.blocks + M) ∧ m.SameOn m' M ∧ m'.fails = m.fails := by
    intro m M h hf s
    cases s with
    | none => exact ⟨.null, m, rfl, by simp, by simp, h.as (by simp [MemPtr.blocks]), Store.SameOn.refl _ _, rfl⟩
    | some s =>
      obtain ⟨m1, a1, w1, b1, s1, f1, _⟩ := h.alloc (hf _) (.text s)
      exact ⟨.block m.next, m1, a1, by simp, by simp, w1, s1, f1⟩
  have fr : ∀ (m : PotMemory) (M : Multiset Nat) (q : MemPtr), q ≠ .junk → m.Within (q.blocks + M) → ∃ m' : PotMemory, m.free q = ok m' ∧ m'.Within M ∧ m.SameOn m' M ∧ m'.fails = m.fails := by
    intro m M q hq h
    cases q with
    | junk => exact absurd rfl hq
    | null => exact ⟨m, rfl, h.as (by simp [MemPtr.blocks]), Store.SameOn.refl _ _, rfl⟩
    | block a =>
      obtain ⟨m', a1, w1, s1, f1, _⟩ := Store.Within.free (a := a) h
      exact ⟨m', a1, w1, s1, f1⟩
  obtain ⟨k, m1, a1, j1, n1, w1, s1, f1⟩ := text m M h hf key
  obtain ⟨x, m2, a2, j2, n2, w2, s2, f2⟩ := text m1 _ w1 (by rw [f1]; exact hf) value
  have w2' : m2.Within (k.blocks + (x.blocks + M)) := w2.as (by abel)
  obtain ⟨m3, a3, w3, s3, f3⟩ := fr m2 _ k j1 w2'
  obtain ⟨m4, a4, w4, s4, f4⟩ := fr m3 _ x j2 w3
  refine ⟨m4, ?_, w4, ?_, by rw [f4, f3, f2, f1]⟩
  · unfold Store.writeProperty Store.setProperty
    have hc : (decide (p = .null) || decide (k = .null) || decide (x = .null)) = true := by
      rcases hn with hn | hn | hn
      · simp [hn]
      · simp [n1.2 hn]
      · simp [n2.2 hn]
    simp only [a1, a2, isNull_ok hp, isNull_ok j1, isNull_ok j2, ok_bind, hc, if_true, a3, a4]
  · intro b hb
    rw [s4 b hb, s3 b (by simp [hb]), s2 b (by simp [hb]), s1 b hb]

theorem search_spec {m : PotMemory} {l : Nat} {ls : List PLink} (hg : PairsGood m l ls) (key : String) (i : Nat) (hi : i ≤ ls.length) :
    m.search key (ls.length - i + 1) (plinkPtr ls i) = ok (match (ls.drop i).find? (fun k => k.key == key) with
      | some k => .block k.valueAt
      | none => .null) := by
  obtain ⟨n, hn⟩ : ∃ n, n = ls.length - i := ⟨_, rfl⟩
  induction n generalizing i with
  | zero =>
    have : i = ls.length := by omega
    subst this
    rw [plinkPtr_ge (le_refl _), List.drop_length, Store.search]
    simp [MemPtr.isNull]
  | succ n ih =>
    have hlt : i < ls.length := by omega
    rw [plinkPtr_lt hlt, List.drop_eq_getElem_cons hlt, Store.search]
    have hl : MemPtr.isNull (.block ls[i].addr) = ok false := rfl
    rw [hl, ok_bind]
    simp only [Bool.false_eq_true, if_false]
    rw [Store.linkAt_eq (hg.link i hlt), ok_bind]
    have hk : (pairLinkOf ls i ls[i]).key = .block ls[i].keyAt := rfl
    rw [hk, Store.textAt_eq (hg.key _ (List.getElem_mem hlt)), ok_bind, List.find?_cons]
    by_cases he : key = ls[i].key
    · have h1 : (ls[i].key == key) = true := by rw [he]; simp
      have h2 : (key == ls[i].key) = true := by rw [← he]; simp
      rw [h1, h2]
      simp only [if_true]
      rfl
    · have h1 : (ls[i].key == key) = false := by simpa using Ne.symm he
      have h2 : (key == ls[i].key) = false := by simpa using he
      rw [h1, h2]
      simp only [Bool.false_eq_true, if_false]
      have hf : (pairLinkOf ls i ls[i]).fwd = plinkPtr ls (i + 1) := rfl
      have := ih (i + 1) (by omega) (by omega)
      rw [hf, show ls.length - i = ls.length - (i + 1) + 1 by omega, this]

theorem readProperty_spec {m : PotMemory} {e : PEntry} {ps : List (String × String)} (he : e.Good m ps) (key : String) :
    m.readProperty (.block e.addr) (some key) = ok (firstValue ps key) := by
  unfold Store.readProperty Store.getProperty
  have hl : MemPtr.isNull (.block e.addr) = ok false := rfl
  simp only [hl, ok_bind, Store.potentialAt_eq he.cell]
  have hp : e.cell.properties = .block e.listAt := rfl
  have hl2 : MemPtr.isNull (.block e.listAt) = ok false := rfl
  simp only [hp, hl2, ok_bind, Bool.false_eq_true, if_false, Store.listAt_eq he.pairs.head]
  have := search_spec he.pairs key 0 (by omega)
  rw [Nat.sub_zero, List.drop_zero] at this
  rw [this, ok_bind]
  unfold firstValue
  rw [← he.props, List.find?_map]
  have hcomp : ((fun p : String × String => p.1 == key) ∘ fun k : PLink => (k.key, k.value)) = fun k : PLink => k.key == key := rfl
  rw [hcomp]
  cases hfind : e.links.find? (fun k => k.key == key) with
  | none => simp [MemPtr.isNull]
  | some k =>
    have hk := List.mem_of_find?_eq_some hfind
    have ht := Store.textAt_eq (he.pairs.value k hk)
    simp only [MemPtr.isNull, ok_bind, Bool.false_eq_true, if_false]
    rw [ht, ok_bind]
    simp

/-! ### all potentials -/

/-- there is a potential -/
def Spec.PotRecord.isHere : PotRecord → Bool
  | .here _ => true
  | _ => false

/-- the blocks of all potentials that exist -/
def potOwned (l : PotLedger) (es : Nat → PEntry) : Multiset Nat := ∑ i ∈ Finset.range l.length, if (l.getD i .freed).isHere then (es i).blocks else 0

theorem potOwned_set {l : PotLedger} {i : Nat} (hi : i < l.length) (es : Nat → PEntry) (e : PEntry) (ps : List (String × String)) :
    potOwned (l.set i (.here ps)) (Function.update es i e) = e.blocks + potOwned (l.set i .freed) es := by
  unfold potOwned
  simp only [List.length_set]
  rw [← Finset.add_sum_erase _ _ (Finset.mem_range.2 hi), ← Finset.add_sum_erase (Finset.range l.length) (fun j => if ((l.set i .freed).getD j .freed).isHere then (es j).blocks else 0) (Finset.mem_range.2 hi)]
  have h1 : ((l.set i (.here ps)).getD i .freed).isHere = true := by simp [hi, PotRecord.isHere]
  have h2 : ((l.set i .freed).getD i .freed).isHere = false := by simp [hi, PotRecord.isHere]
  rw [if_pos h1, Function.update_self, if_neg (by rw [h2]; simp), zero_add]
  congr 1
  refine Finset.sum_congr rfl fun j hj => ?_
  have hne : j ≠ i := (Finset.mem_erase.1 hj).1
  rw [Function.update_of_ne hne]
  simp [List.getElem?_set, Ne.symm hne]

theorem potOwned_split {l : PotLedger} {i : Nat} {ps : List (String × String)} (h : l[i]? = some (.here ps)) (es : Nat → PEntry) :
    potOwned l es = (es i).blocks + potOwned (l.set i .freed) es := by
  have hi := (List.getElem?_eq_some_iff.1 h).1
  have hx := (List.getElem?_eq_some_iff.1 h).2
  have := potOwned_set hi es (es i) ps
  rw [Function.update_eq_self] at this
  rw [← this, ← hx, List.set_getElem_self]

theorem potOwned_append (l : PotLedger) (es : Nat → PEntry) (e : PEntry) (r : PotRecord) :
    potOwned (l ++ [r]) (Function.update es l.length e) = (if r.isHere then e.blocks else 0) + potOwned l es := by
  unfold potOwned
  rw [List.length_append, List.length_singleton, Finset.sum_range_succ, add_comm]
  congr 1
  · simp
  · refine Finset.sum_congr rfl fun j hj => ?_
    have hj' := Finset.mem_range.1 hj
    rw [Function.update_of_ne (by omega)]
    simp [List.getElem?_append_left hj']

theorem potOwned_le {l : PotLedger} {i : Nat} {ps : List (String × String)} (h : l[i]? = some (.here ps)) (es : Nat → PEntry) : (es i).blocks ≤ potOwned l es := by
  rw [potOwned_split h]
  exact Multiset.le_add_right _ _

/-- The memory holds what is in the ledger. -/
structure PotWorld.Inv (w : PotWorld) (l : PotLedger) (es : Nat → PEntry) : Prop where
  len : w.pots.length = l.length
  ptr : ∀ (i : Nat) (ps : List (String × String)), l[i]? = some (.here ps) → w.pots[i]? = some (MemPtr.block (es i).addr)
  null : ∀ i : Nat, l[i]? = some .refused → w.pots[i]? = some MemPtr.null
  good : ∀ (i : Nat) (ps : List (String × String)), l[i]? = some (.here ps) → (es i).Good w.mem ps
  within : w.mem.Within (potOwned l es)
  fails : ∀ k, w.mem.fails k = false

theorem PotWorld.Inv.rd {w : PotWorld} {l : PotLedger} {es : Nat → PEntry} (h : w.Inv l es) {v : Nat} {ps : List (String × String)} (hv : l[v]? = some (.here ps)) :
    Nip.rd w.pots v = ok (.block (es v).addr) := by
  have h1 := h.ptr v ps hv
  obtain ⟨hi, h2⟩ := List.getElem?_eq_some_iff.1 h1
  rw [rd_lt hi, h2]

theorem PotWorld.Inv.rdNull {w : PotWorld} {l : PotLedger} {es : Nat → PEntry} (h : w.Inv l es) {v : Nat} (hv : l[v]? = some .refused) : Nip.rd w.pots v = ok .null := by
  have h1 := h.null v hv
  obtain ⟨hi, h2⟩ := List.getElem?_eq_some_iff.1 h1
  rw [rd_lt hi, h2]

/-- a potential exists, or the call that should create it was refused -/
theorem Spec.PotLedger.Known.cases {l : PotLedger} {v : Nat} (h : l.Known v) : (∃ ps, l[v]? = some (.here ps)) ∨ l[v]? = some .refused := by
  obtain ⟨r, h1, h2⟩ := h
  cases r with
  | refused => exact Or.inr h1
  | here ps => exact Or.inl ⟨ps, h1⟩
  | freed => exact absurd rfl h2

/-- a potential was added -/
theorem PotWorld.Inv.added {w : PotWorld} {l : PotLedger} {es : Nat → PEntry} (h : w.Inv l es) {e : PEntry} {m' : PotMemory} (h1 : m'.Within (e.blocks + potOwned l es))
    (h2 : w.mem.SameOn m' (potOwned l es)) (h3 : m'.fails = w.mem.fails) (h4 : e.Good m' []) :
    PotWorld.Inv { w with mem := m', pots := w.pots ++ [.block e.addr] } (l ++ [.here []]) (Function.update es l.length e) := by
  have key : ∀ (i : Nat) (r : PotRecord), (l ++ [.here []])[i]? = some r → (i = l.length ∧ r = .here []) ∨ (i < l.length ∧ l[i]? = some r) := by
    intro i z hz
    by_cases hi : i < l.length
    · rw [List.getElem?_append_left hi] at hz
      exact Or.inr ⟨hi, hz⟩
    · rw [List.getElem?_append_right (by omega)] at hz
      have hi' : i - l.length = 0 := by
        have := (List.getElem?_eq_some_iff.1 hz).1
        simp only [List.length_singleton] at this
        omega
      rw [hi'] at hz
      simp only [List.getElem?_cons_zero, Option.some.injEq] at hz
      exact Or.inl ⟨by omega, hz.symm⟩
  refine ⟨by simp [h.len], ?_, ?_, ?_, ?_, by intro k; rw [h3]; exact h.fails k⟩
  · intro i ps hz
    rcases key i _ hz with ⟨rfl, _⟩ | ⟨hi, hz⟩
    · rw [Function.update_self, List.getElem?_append_right (by rw [h.len]), h.len]
      simp
    · rw [Function.update_of_ne (by omega), List.getElem?_append_left (by rw [h.len]; exact hi)]
      exact h.ptr i ps hz
  · intro i hz
    rcases key i _ hz with ⟨_, e⟩ | ⟨hi, hz⟩
    · cases e
    · rw [List.getElem?_append_left (by rw [h.len]; exact hi)]
      exact h.null i hz
  · intro i ps hz
    rcases key i _ hz with ⟨rfl, e⟩ | ⟨hi, hz⟩
    · rw [Function.update_self]
      cases e
      exact h4
    · rw [Function.update_of_ne (by omega)]
      exact (h.good i ps hz).keep (h2.mono (potOwned_le hz es))
  · rw [potOwned_append]
    simpa [PotRecord.isHere] using h1

/-- a call was refused -/
theorem PotWorld.Inv.addedNull {w : PotWorld} {l : PotLedger} {es : Nat → PEntry} (h : w.Inv l es) : PotWorld.Inv { w with pots := w.pots ++ [.null] } (l ++ [.refused]) es := by
  have key : ∀ (i : Nat) (r : PotRecord), (l ++ [.refused])[i]? = some r → (i = l.length ∧ r = .refused) ∨ (i < l.length ∧ l[i]? = some r) := by
    intro i z hz
    by_cases hi : i < l.length
    · rw [List.getElem?_append_left hi] at hz
      exact Or.inr ⟨hi, hz⟩
    · rw [List.getElem?_append_right (by omega)] at hz
      have hi' : i - l.length = 0 := by
        have := (List.getElem?_eq_some_iff.1 hz).1
        simp only [List.length_singleton] at this
        omega
      rw [hi'] at hz
      simp only [List.getElem?_cons_zero, Option.some.injEq] at hz
      exact Or.inl ⟨by omega, hz.symm⟩
  refine ⟨by simp [h.len], ?_, ?_, ?_, ?_, h.fails⟩
  · intro i ps hz
    rcases key i _ hz with ⟨_, e⟩ | ⟨hi, hz⟩
    · cases e
    · rw [List.getElem?_append_left (by rw [h.len]; exact hi)]
      exact h.ptr i ps hz
  · intro i hz
    rcases key i _ hz with ⟨rfl, _⟩ | ⟨hi, hz⟩
    · rw [List.getElem?_append_right (by rw [h.len]), h.len]
      simp
    · rw [List.getElem?_append_left (by rw [h.len]; exact hi)]
      exact h.null i hz
  · intro i ps hz
    rcases key i _ hz with ⟨_, e⟩ | ⟨hi, hz⟩
    · cases e
    · exact h.good i ps hz
  · have := potOwned_append l es (es l.length) .refused
    rw [Function.update_eq_self] at this
    rw [this]
    simpa [PotRecord.isHere] using h.within

/-- one potential has changed -/
theorem PotWorld.Inv.changed {w : PotWorld} {l : PotLedger} {es : Nat → PEntry} (h : w.Inv l es) {v : Nat} {ps qs : List (String × String)} (hv : l[v]? = some (.here ps)) {m' : PotMemory} {e' : PEntry}
    (h1 : m'.Within (e'.blocks + potOwned (l.set v .freed) es)) (h2 : w.mem.SameOn m' (potOwned (l.set v .freed) es)) (h3 : m'.fails = w.mem.fails) (h4 : e'.addr = (es v).addr)
    (h5 : e'.Good m' qs) : PotWorld.Inv { w with mem := m' } (l.set v (.here qs)) (Function.update es v e') := by
  have hi := (List.getElem?_eq_some_iff.1 hv).1
  have key : ∀ (i : Nat) (r : PotRecord), (l.set v (.here qs))[i]? = some r → (i = v ∧ r = .here qs) ∨ (i ≠ v ∧ l[i]? = some r) := by
    intro i z hz
    rw [List.getElem?_set] at hz
    split at hz
    · rename_i e
      subst e
      simp only [hi, if_true, Option.some.injEq] at hz
      exact Or.inl ⟨rfl, hz.symm⟩
    · rename_i e
      exact Or.inr ⟨Ne.symm e, hz⟩
  refine ⟨by simpa using h.len, ?_, ?_, ?_, ?_, by intro k; rw [h3]; exact h.fails k⟩
  · intro i z hz
    rcases key i _ hz with ⟨rfl, _⟩ | ⟨hne, hz⟩
    · rw [Function.update_self, h4]
      exact h.ptr _ _ hv
    · rw [Function.update_of_ne hne]
      exact h.ptr _ _ hz
  · intro i hz
    rcases key i _ hz with ⟨_, e⟩ | ⟨hne, hz⟩
    · cases e
    · exact h.null i hz
  · intro i z hz
    rcases key i _ hz with ⟨rfl, e⟩ | ⟨hne, hz⟩
    · rw [Function.update_self]
      cases e
      exact h5
    · rw [Function.update_of_ne hne]
      refine (h.good _ _ hz).keep (h2.mono (potOwned_le (ps := z) ?_ es))
      rw [List.getElem?_set, if_neg (Ne.symm hne)]
      exact hz
  · rw [potOwned_set hi]
    exact h1

/-- nothing has changed, except that memory was used in between -/
theorem PotWorld.Inv.same {w : PotWorld} {l : PotLedger} {es : Nat → PEntry} (h : w.Inv l es) {m' : PotMemory} (h1 : m'.Within (potOwned l es)) (h2 : w.mem.SameOn m' (potOwned l es))
    (h3 : m'.fails = w.mem.fails) : PotWorld.Inv { w with mem := m' } l es :=
  ⟨h.len, h.ptr, h.null, fun i ps hz => (h.good i ps hz).keep (h2.mono (potOwned_le hz es)), h1, by intro k; rw [h3]; exact h.fails k⟩

theorem modify_at {l : PotLedger} {v : Nat} {r : PotRecord} (h : l[v]? = some r) (g : PotRecord → PotRecord) : l.modify v g = l.set v (g r) := by
  obtain ⟨hi, hx⟩ := List.getElem?_eq_some_iff.1 h
  refine List.ext_getElem? fun i => ?_
  rw [List.getElem?_modify, List.getElem?_set]
  by_cases hiv : v = i
  · rw [if_pos hiv, if_pos hi, ← hiv]
    exact (congrArg _ h).trans (by simp)
  · simp [hiv]

theorem set_same {l : PotLedger} {v : Nat} {r : PotRecord} (h : l[v]? = some r) : l.set v r = l := by
  obtain ⟨hi, hx⟩ := List.getElem?_eq_some_iff.1 h
  rw [← hx, List.set_getElem_self]

theorem PotWorld.Inv.step {w : PotWorld} {l : PotLedger} {es : Nat → PEntry} (h : w.Inv l es) {a : PotCall} (ha : a.Allowed l) :
    ∃ w' es', w.step a = ok w' ∧ PotWorld.Inv w' (l.after a) es' ∧ w'.answers = w.answers ++ l.answer a := by
  cases a with
  | create card dimension data =>
    by_cases h0 : dimension < 0
    · refine ⟨{ w with pots := w.pots ++ [.null] }, es, ?_, ?_, by simp [PotLedger.answer]⟩
      · unfold PotWorld.step Store.newPotential
        simp only [if_pos h0, ok_bind]
      · unfold PotLedger.after
        simp only [if_pos h0]
        exact h.addedNull
    · obtain ⟨e, m', a1, a2, a3, a4, a5⟩ := newPotential_spec h.within h.fails h0 ha.1 ha.2
      refine ⟨{ w with mem := m', pots := w.pots ++ [.block e.addr] }, Function.update es l.length e, ?_, ?_, by simp [PotLedger.answer]⟩
      · unfold PotWorld.step
        simp only [a1, ok_bind]
      · unfold PotLedger.after
        simp only [if_neg h0]
        exact h.added a2 a3 a4 a5
  | copy v =>
    rcases PotLedger.Known.cases ha with ⟨ps, hv⟩ | hv
    · obtain ⟨e, m', a1, a2, a3, a4, a5⟩ := copyPotential_spec h.within h.fails (h.good v ps hv)
      refine ⟨{ w with mem := m', pots := w.pots ++ [.block e.addr] }, Function.update es l.length e, ?_, ?_, by simp [PotLedger.answer]⟩
      · unfold PotWorld.step
        simp only [h.rd hv, a1, ok_bind]
      · unfold PotLedger.after
        simp only [hv]
        exact h.added a2 a3 a4 a5
    · refine ⟨{ w with pots := w.pots ++ [.null] }, es, ?_, ?_, by simp [PotLedger.answer]⟩
      · unfold PotWorld.step Store.copyPotential
        simp only [h.rdNull hv, ok_bind, MemPtr.isNull, if_true]
      · unfold PotLedger.after
        simp only [hv]
        exact h.addedNull
  | property v key value =>
    rcases PotLedger.Known.cases ha with ⟨ps, hv⟩ | hv
    · by_cases hn : key = none ∨ value = none
      · obtain ⟨m', a1, a2, a3, a4⟩ := writeProperty_refused (p := .block (es v).addr) h.within h.fails (by simp) key value (Or.inr hn)
        refine ⟨{ w with mem := m' }, es, ?_, ?_, by simp [PotLedger.answer]⟩
        · unfold PotWorld.step
          simp only [h.rd hv, a1, ok_bind]
        · have : l.after (.property v key value) = l := by
            unfold PotLedger.after
            rcases hn with rfl | rfl
            · rfl
            · cases key <;> rfl
          rw [this]
          exact h.same a2 a3 a4
      · obtain ⟨k, rfl⟩ : ∃ k, key = some k := by
          cases key with
          | none => exact absurd (Or.inl rfl) hn
          | some k => exact ⟨k, rfl⟩
        obtain ⟨x, rfl⟩ : ∃ x, value = some x := by
          cases value with
          | none => exact absurd (Or.inr rfl) hn
          | some k => exact ⟨k, rfl⟩
        have hw := h.within
        rw [potOwned_split hv] at hw
        obtain ⟨e', m', a1, a2, a3, a4, a5, a6⟩ := writeProperty_spec hw (h.good v ps hv) h.fails k x
        refine ⟨{ w with mem := m' }, Function.update es v e', ?_, ?_, by simp [PotLedger.answer]⟩
        · unfold PotWorld.step
          simp only [h.rd hv, a1, ok_bind]
        · unfold PotLedger.after
          simp only [modify_at hv]
          exact h.changed hv a2 a3 a4 a5 a6
    · obtain ⟨m', a1, a2, a3, a4⟩ := writeProperty_refused (p := .null) h.within h.fails (by simp) key value (Or.inl rfl)
      refine ⟨{ w with mem := m' }, es, ?_, ?_, by simp [PotLedger.answer]⟩
      · unfold PotWorld.step
        simp only [h.rdNull hv, a1, ok_bind]
      · have : l.after (.property v key value) = l := by
          unfold PotLedger.after
          cases key with
          | none => rfl
          | some k =>
            cases value with
            | none => rfl
            | some x =>
              simp only [modify_at hv]
              exact set_same hv
        rw [this]
        exact h.same a2 a3 a4
  | ask v key =>
    rcases PotLedger.Known.cases ha with ⟨ps, hv⟩ | hv
    · cases key with
      | none =>
        refine ⟨{ w with answers := w.answers ++ [none] }, es, ?_, ⟨h.len, h.ptr, h.null, h.good, h.within, h.fails⟩, rfl⟩
        unfold PotWorld.step Store.readProperty Store.getProperty
        simp only [h.rd hv, ok_bind, MemPtr.isNull, if_true]
      | some k =>
        refine ⟨{ w with answers := w.answers ++ [firstValue ps k] }, es, ?_, ⟨h.len, h.ptr, h.null, h.good, h.within, h.fails⟩, ?_⟩
        · unfold PotWorld.step
          simp only [h.rd hv, ok_bind, readProperty_spec (h.good v ps hv)]
        · unfold PotLedger.answer
          simp only [hv]
    · refine ⟨{ w with answers := w.answers ++ [none] }, es, ?_, ⟨h.len, h.ptr, h.null, h.good, h.within, h.fails⟩, ?_⟩
      · unfold PotWorld.step Store.readProperty Store.getProperty
        simp only [h.rdNull hv, ok_bind, MemPtr.isNull, if_true]
      · unfold PotLedger.answer
        cases key with
        | none => rfl
        | some k => simp only [hv]
  | free v =>
    rcases PotLedger.Known.cases ha with ⟨ps, hv⟩ | hv
    · have hw := h.within
      rw [potOwned_split hv] at hw
      obtain ⟨m', a1, a2, a3, a4⟩ := freePotential_spec hw (h.good v ps hv)
      refine ⟨{ w with mem := m' }, es, ?_, ?_, by simp [PotLedger.answer]⟩
      · unfold PotWorld.step
        simp only [h.rd hv, a1, ok_bind]
      · unfold PotLedger.after
        simp only [modify_at hv]
        have key : ∀ (i : Nat) (r : PotRecord), r ≠ .freed → (l.set v .freed)[i]? = some r → l[i]? = some r := by
          intro i r hr hz
          rw [List.getElem?_set] at hz
          split at hz
          · split at hz
            · cases hz
              exact absurd rfl hr
            · cases hz
          · exact hz
        exact ⟨by simpa using h.len, fun i z hz => h.ptr i z (key i _ (by simp) hz), fun i hz => h.null i (key i _ (by simp) hz),
          fun i z hz => (h.good i z (key i _ (by simp) hz)).keep (a3.mono (potOwned_le hz es)), a2, by intro k; rw [a4]; exact h.fails k⟩
    · refine ⟨w, es, ?_, ?_, by simp [PotLedger.answer]⟩
      · unfold PotWorld.step Store.freePotential
        simp only [h.rdNull hv, ok_bind, MemPtr.isNull, if_true]
      · unfold PotLedger.after
        simp only [modify_at hv]
        rw [set_same hv]
        exact h

theorem PotWorld.Inv.run {w : PotWorld} {l : PotLedger} {es : Nat → PEntry} (h : w.Inv l es) (calls : List PotCall) (ht : PotTidy l calls) :
    ∃ w' es', w.run calls = ok w' ∧ PotWorld.Inv w' (l.final calls) es' ∧ w'.answers = w.answers ++ l.answers calls := by
  induction calls generalizing w l es with
  | nil => exact ⟨w, es, rfl, h, by simp [PotLedger.answers]⟩
  | cons a calls ih =>
    obtain ⟨w1, es1, e1, e2, e3⟩ := h.step ht.1
    obtain ⟨w2, es2, e4, e5, e6⟩ := ih e2 ht.2
    refine ⟨w2, es2, by rw [PotWorld.run, e1, ok_bind, e4], e5, ?_⟩
    rw [e6, e3, PotLedger.answers, List.append_assoc]

theorem Spec.PotLedger.blocks_eq (l : PotLedger) : l.blocks = ∑ i ∈ Finset.range l.length, (l.getD i .freed).blocks := by
  unfold PotLedger.blocks
  induction l with
  | nil => rfl
  | cons o l ih =>
    rw [List.map_cons, List.sum_cons, ih, List.length_cons, Finset.sum_range_succ']
    simp [add_comm]

theorem PotWorld.Inv.inUse {w : PotWorld} {l : PotLedger} {es : Nat → PEntry} (h : w.Inv l es) : w.mem.inUse = l.blocks := by
  rw [h.within.count, PotLedger.blocks_eq]
  unfold potOwned
  rw [Multiset.card_sum]
  refine Finset.sum_congr rfl fun i hi => ?_
  have hi' := Finset.mem_range.1 hi
  rw [List.getD_eq_getElem?_getD, List.getElem?_eq_getElem hi', Option.getD_some]
  cases hx : l[i] with
  | refused => simp [PotRecord.isHere, PotRecord.blocks]
  | freed => simp [PotRecord.isHere, PotRecord.blocks]
  | here ps =>
    have := h.good i ps (by rw [List.getElem?_eq_getElem hi', hx])
    simpa [PotRecord.isHere] using this.count

/-- nothing yet -/
def PotWorld.start (fails : Nat → Bool) : PotWorld := { mem := Store.empty fails, pots := [], answers := [] }

theorem PotWorld.inv_start {fails : Nat → Bool} (hf : ∀ k, fails k = false) : PotWorld.Inv (PotWorld.start fails) [] (fun _ => ⟨0, 0, 0, 0, 0, 0, 0, [], []⟩) := by
  refine ⟨rfl, by simp, by simp, by simp, ⟨by simp [potOwned], by simp [potOwned, Store.empty, PotWorld.start], by simp [potOwned]⟩, hf⟩

/-! ### failing allocations -/

theorem newPotential_noStruct {m : PotMemory} {M : Multiset Nat} (h : m.Within M) (card : List Nat) {dimension : Int} (h0 : ¬ dimension < 0) (data : Option Nat) (c0 : m.fails m.next = true) :
    ∃ m' : PotMemory, m.newPotential card dimension data = ok (.null, m') ∧ m'.Within M ∧ m.SameOn m' M := by
  obtain ⟨m1, a1, w1, s1, f1, _⟩ := h.allocNull c0 (.potential { dim := 0, size := 0, card := .junk, temp := .junk, data := .junk, properties := .junk })
  refine ⟨m1, ?_, w1, s1⟩
  unfold Store.newPotential
  simp only [h0, if_false, a1, show (MemPtr.null == MemPtr.null) = true from rfl, if_true]

/-- One of the two arrays of indices cannot be allocated.  The array of cardinalities is freed, the other one is not. -/
theorem newPotential_noIndex {m : PotMemory} {M : Multiset Nat} (h : m.Within M) (card : List Nat) {dimension : Int} (h0 : ¬ dimension < 0) (data : Option Nat) (c0 : m.fails m.next = false)
    (c1 : m.fails (m.next + 1) = true ∨ m.fails (m.next + 2) = true) :
    ∃ m' : PotMemory, m.newPotential card dimension data = ok (.null, m') ∧ m'.Within ((if m.fails (m.next + 2) then 0 else {m.next + 2}) + M) ∧ m.SameOn m' M := by
  generalize hz : List.replicate (if 0 < dimension.toNat then dimension.toNat else 1) (0 : Nat) = z
  have hbn : ∀ x : Nat, (MemPtr.block x == MemPtr.null) = false := fun _ => rfl
  have hnn : (MemPtr.null == MemPtr.null) = true := rfl
  have hfn : ∀ x : PotMemory, x.free .null = ok x := fun _ => rfl
  obtain ⟨m1, a1, w1, b1, s1, f1, n1⟩ := h.alloc c0 (.potential { dim := 0, size := 0, card := .junk, temp := .junk, data := .junk, properties := .junk })
  cases d1 : m.fails (m.next + 1) with
  | false =>
    have d2 : m.fails (m.next + 2) = true := by simpa [d1] using c1
    obtain ⟨m2, a2, w2, b2, s2, f2, n2⟩ := w1.alloc (by rw [f1, n1]; exact d1) (.ints z)
    obtain ⟨m3, a3, w3, s3, f3, _⟩ := w2.allocNull (by rw [f2, f1, n2, n1]; exact d2) (.ints z)
    have w3' : m3.Within ({m.next} + ({m1.next} + M)) := w3.as (by abel)
    obtain ⟨m4, a4, w4, b4, s4, f4, _⟩ := w3'.put (.potential { dim := 0, size := 0, card := .block m1.next, temp := .null, data := .junk, properties := .junk })
    have w4' : m4.Within ({m1.next} + ({m.next} + M)) := w4.as (by abel)
    obtain ⟨m5, a5, w5, s5, f5, _⟩ := w4'.free
    obtain ⟨m6, a6, w6, s6, f6, _⟩ := w5.free
    refine ⟨m6, ?_, by rw [d2, if_pos rfl, zero_add]; exact w6, ?_⟩
    · unfold Store.newPotential
      simp only [h0, if_false, hz, a1, a2, a3, a4, a5, a6, hbn, hnn, ok_bind, Bool.false_eq_true, Bool.or_true, if_true]
    · intro b hb
      rw [s6 b hb, s5 b (by simp [hb]), s4 b (by simp [hb]), s3 b (by simp [hb]), s2 b (by simp [hb]), s1 b hb]
  | true =>
    obtain ⟨m2, a2, w2, s2, f2, n2⟩ := w1.allocNull (by rw [f1, n1]; exact d1) (.ints z)
    cases d2 : m.fails (m.next + 2) with
    | true =>
      obtain ⟨m3, a3, w3, s3, f3, _⟩ := w2.allocNull (by rw [f2, f1, n2, n1]; exact d2) (.ints z)
      obtain ⟨m4, a4, w4, b4, s4, f4, _⟩ := w3.put (.potential { dim := 0, size := 0, card := .null, temp := .null, data := .junk, properties := .junk })
      obtain ⟨m6, a6, w6, s6, f6, _⟩ := w4.free
      refine ⟨m6, ?_, by rw [if_pos rfl, zero_add]; exact w6, ?_⟩
      · unfold Store.newPotential
        simp only [h0, if_false, hz, a1, a2, a3, a4, hfn, a6, hbn, hnn, ok_bind, Bool.false_eq_true, Bool.or_true, if_true]
      · intro b hb
        rw [s6 b hb, s4 b (by simp [hb]), s3 b (by simp [hb]), s2 b (by simp [hb]), s1 b hb]
    | false =>
      obtain ⟨m3, a3, w3, b3, s3, f3, _⟩ := w2.alloc (by rw [f2, f1, n2, n1]; exact d2) (.ints z)
      have hn2 : m2.next = m.next + 2 := by rw [n2, n1]
      rw [hn2] at a3 w3
      have w3' : m3.Within ({m.next} + ({m.next + 2} + M)) := w3.as (by abel)
      obtain ⟨m4, a4, w4, b4, s4, f4, _⟩ := w3'.put (.potential { dim := 0, size := 0, card := .null, temp := .block (m.next + 2), data := .junk, properties := .junk })
      obtain ⟨m6, a6, w6, s6, f6, _⟩ := w4.free
      refine ⟨m6, ?_, by simpa using w6, ?_⟩
      · unfold Store.newPotential
        simp only [h0, if_false, hz, a1, a2, a3, a4, hfn, a6, hbn, hnn, ok_bind, Bool.false_eq_true, Bool.or_false, if_true]
      · intro b hb
        rw [s6 b (by simp [hb]), s4 b (by simp [hb]), s3 b (by simp [hb]), s2 b (by simp [hb]), s1 b hb]

/-- The numbers cannot be allocated: the potential is freed, though its list of properties was never set. -/
theorem newPotential_noData {m : PotMemory} {M : Multiset Nat} (h : m.Within M) {card : List Nat} {dimension : Int} (h0 : ¬ dimension < 0) (hd : dimension.toNat ≤ card.length) (data : Option Nat)
    (c0 : m.fails m.next = false) (c1 : m.fails (m.next + 1) = false) (c2 : m.fails (m.next + 2) = false) (c3 : m.fails (m.next + 3) = true) :
    m.newPotential card dimension data = ub := by
  obtain ⟨row, r1, r2, r3⟩ := fillCard_spec hd
  generalize hz : List.replicate (if 0 < dimension.toNat then dimension.toNat else 1) (0 : Nat) = z at r1
  have hbn : ∀ x : Nat, (MemPtr.block x == MemPtr.null) = false := fun _ => rfl
  have hnn : (MemPtr.null == MemPtr.null) = true := rfl
  obtain ⟨m1, a1, w1, b1, s1, f1, n1⟩ := h.alloc c0 (.potential { dim := 0, size := 0, card := .junk, temp := .junk, data := .junk, properties := .junk })
  obtain ⟨m2, a2, w2, b2, s2, f2, n2⟩ := w1.alloc (by rw [f1, n1]; exact c1) (.ints z)
  obtain ⟨m3, a3, w3, b3, s3, f3, n3⟩ := w2.alloc (by rw [f2, f1, n2, n1]; exact c2) (.ints z)
  have w3' : m3.Within ({m.next} + ({m2.next} + ({m1.next} + M))) := w3.as (by abel)
  obtain ⟨m4, a4, w4, b4, s4, f4, n4⟩ := w3'.put (.potential { dim := 0, size := 0, card := .block m1.next, temp := .block m2.next, data := .junk, properties := .junk })
  have w4' : m4.Within ({m1.next} + ({m.next} + ({m2.next} + M))) := w4.as (by abel)
  obtain ⟨m5, a5, w5, b5, s5, f5, n5⟩ := w4'.put (.ints row)
  obtain ⟨m6, a6, w6, s6, f6, _⟩ := w5.allocNull (by rw [f5, f4, f3, f2, f1, n5, n4, n3, n2, n1]; exact c3) (.reals (card.take dimension.toNat).prod)
  have w6' : m6.Within ({m.next} + ({m1.next} + ({m2.next} + M))) := w6.as (by abel)
  obtain ⟨m7, a7, w7, b7, s7, f7, _⟩ := w6'.put (.potential { dim := dimension.toNat, size := (card.take dimension.toNat).prod, card := .block m1.next, temp := .block m2.next, data := .null, properties := .junk })
  have hfree : m7.freePotential (.block m.next) = ub := by
    unfold Store.freePotential
    have hl : MemPtr.isNull (.block m.next) = ok false := rfl
    rw [hl, ok_bind]
    simp only [Bool.false_eq_true, if_false]
    rw [Store.potentialAt_eq b7, ok_bind]
    simp only [Store.freePairs, MemPtr.isNull, ub_bind]
  unfold Store.newPotential
  simp only [h0, if_false, hz, a1, a2, a3, a4, r1, a5, a6, a7, hbn, hnn, ok_bind, Bool.false_eq_true, Bool.or_false, if_true, hfree, ub_bind]

/-- The list of properties cannot be allocated: there is a potential without it. -/
theorem newPotential_noList {m : PotMemory} {M : Multiset Nat} (h : m.Within M) {card : List Nat} {dimension : Int} (h0 : ¬ dimension < 0) (hd : dimension.toNat ≤ card.length) {data : Option Nat}
    (hn : ∀ n, data = some n → (card.take dimension.toNat).prod ≤ n)
    (c0 : m.fails m.next = false) (c1 : m.fails (m.next + 1) = false) (c2 : m.fails (m.next + 2) = false) (c3 : m.fails (m.next + 3) = false) (c4 : m.fails (m.next + 4) = true) :
    ∃ (p c t a : Nat) (cell : PotCell) (m' : PotMemory), m.newPotential card dimension data = ok (.block p, m') ∧ m'.Within ({c} + ({t} + ({a} + ({p} + M)))) ∧ m.SameOn m' M ∧
      m'.blocks p = some (.potential cell) ∧ cell.card = .block c ∧ cell.temp = .block t ∧ cell.data = .block a ∧ cell.properties = .null := by
  obtain ⟨row, r1, r2, r3⟩ := fillCard_spec hd
  generalize hz : List.replicate (if 0 < dimension.toNat then dimension.toNat else 1) (0 : Nat) = z at r1
  have hbn : ∀ x : Nat, (MemPtr.block x == MemPtr.null) = false := fun _ => rfl
  have hdata : (data.isSome && decide (data.getD 0 < (card.take dimension.toNat).prod)) = false := by
    cases data with
    | none => rfl
    | some n => simpa using hn n rfl
  obtain ⟨m1, a1, w1, b1, s1, f1, n1⟩ := h.alloc c0 (.potential { dim := 0, size := 0, card := .junk, temp := .junk, data := .junk, properties := .junk })
  obtain ⟨m2, a2, w2, b2, s2, f2, n2⟩ := w1.alloc (by rw [f1, n1]; exact c1) (.ints z)
  obtain ⟨m3, a3, w3, b3, s3, f3, n3⟩ := w2.alloc (by rw [f2, f1, n2, n1]; exact c2) (.ints z)
  have w3' : m3.Within ({m.next} + ({m2.next} + ({m1.next} + M))) := w3.as (by abel)
  obtain ⟨m4, a4, w4, b4, s4, f4, n4⟩ := w3'.put (.potential { dim := 0, size := 0, card := .block m1.next, temp := .block m2.next, data := .junk, properties := .junk })
  have w4' : m4.Within ({m1.next} + ({m.next} + ({m2.next} + M))) := w4.as (by abel)
  obtain ⟨m5, a5, w5, b5, s5, f5, n5⟩ := w4'.put (.ints row)
  obtain ⟨m6, a6, w6, b6, s6, f6, n6⟩ := w5.alloc (by rw [f5, f4, f3, f2, f1, n5, n4, n3, n2, n1]; exact c3) (.reals (card.take dimension.toNat).prod)
  have w6' : m6.Within ({m.next} + ({m5.next} + ({m1.next} + ({m2.next} + M)))) := w6.as (by abel)
  obtain ⟨m7, a7, w7, b7, s7, f7, n7⟩ := w6'.put (.potential { dim := dimension.toNat, size := (card.take dimension.toNat).prod, card := .block m1.next, temp := .block m2.next, data := .block m5.next, properties := .junk })
  obtain ⟨m8, a8, w8, s8, f8, _⟩ := w7.allocNull (by rw [f7, f6, f5, f4, f3, f2, f1, n7, n6, n5, n4, n3, n2, n1]; exact c4) (.list { length := 0, first := .null, last := .null })
  obtain ⟨m9, a9, w9, b9, s9, f9, _⟩ := w8.put (.potential { dim := dimension.toNat, size := (card.take dimension.toNat).prod, card := .block m1.next, temp := .block m2.next, data := .block m5.next, properties := .null })
  refine ⟨m.next, m1.next, m2.next, m5.next, _, m9, ?_, w9.as (by abel), ?_, b9, rfl, rfl, rfl, rfl⟩
  · unfold Store.newPotential
    simp only [h0, if_false, hz, a1, a2, a3, a4, r1, a5, a6, a7, a8, a9, hdata, ok_bind, Bool.false_eq_true, Bool.or_false, hbn]
  · intro b hb
    rw [s9 b (by simp [hb]), s8 b (by simp [hb]), s7 b (by simp [hb]), s6 b (by simp [hb]), s5 b (by simp [hb]), s4 b (by simp [hb]), s3 b (by simp [hb]), s2 b (by simp [hb]), s1 b hb]

/-- A potential without a list can be freed. -/
theorem freePotential_noList {m : PotMemory} {M : Multiset Nat} {p c t a : Nat} {cell : PotCell} (h : m.Within ({c} + ({t} + ({a} + ({p} + M))))) (hc : m.blocks p = some (.potential cell))
    (h1 : cell.card = .block c) (h2 : cell.temp = .block t) (h3 : cell.data = .block a) (h4 : cell.properties = .null) :
    ∃ m' : PotMemory, m.freePotential (.block p) = ok m' ∧ m'.Within M ∧ m.SameOn m' M := by
  obtain ⟨m2, a2, w2, s2, f2, _⟩ := h.free
  obtain ⟨m3, a3, w3, s3, f3, _⟩ := w2.free
  obtain ⟨m4, a4, w4, s4, f4, _⟩ := w3.free
  obtain ⟨m5, a5, w5, s5, f5, _⟩ := w4.free
  refine ⟨m5, ?_, w5, ?_⟩
  · unfold Store.freePotential
    have hl : MemPtr.isNull (.block p) = ok false := rfl
    have hp : m.freePairs .null = ok m := by simp [Store.freePairs, MemPtr.isNull]
    rw [hl, ok_bind]
    simp only [Bool.false_eq_true, if_false]
    rw [Store.potentialAt_eq hc, ok_bind, h4, hp, ok_bind, h1, a2, ok_bind, h2, a3, ok_bind, h3, a4, ok_bind, a5]
  · intro b hb
    rw [s5 b hb, s4 b (by simp [hb]), s3 b (by simp [hb]), s2 b (by simp [hb])]

/-- A property cannot be written because the place in the list cannot be allocated, or because there is no list: nothing changes. -/
theorem appendPair_refused {m : PotMemory} {M : Multiset Nat} (h : m.Within M) {l k x : Nat} (hf : m.fails m.next = true) :
    ∃ m' : PotMemory, m.appendPair (.block l) (.block k) (.block x) = ok (true, m') ∧ m'.Within M ∧ m.SameOn m' M ∧ m'.fails = m.fails := by
  obtain ⟨m1, a1, w1, s1, f1, _⟩ := h.allocNull hf (.link { key := .junk, value := .junk, fwd := .junk, bwd := .junk })
  refine ⟨m1, ?_, w1, s1, f1⟩
  unfold Store.appendPair
  simp only [MemPtr.isNull, ok_bind, Bool.false_eq_true, if_false, Bool.or_false, a1, show (MemPtr.null == MemPtr.null) = true from rfl, if_true]

theorem newText_any {m : PotMemory} {M : Multiset Nat} (h : m.Within M) (s : String) : ∃ (q : MemPtr) (m' : PotMemory), m.newText (some s) = (q, m') ∧ q ≠ .junk ∧
    m'.Within (q.blocks + M) ∧ m.SameOn m' M ∧ m'.fails = m.fails ∧ (∀ a, q = .block a → m'.blocks a = some (.text s)) := by
  cases hf : m.fails m.next with
  | true =>
    obtain ⟨m1, a1, w1, s1, f1, _⟩ := h.allocNull hf (.text s)
    exact ⟨.null, m1, a1, by simp, w1.as (by simp [MemPtr.blocks]), s1, f1, by simp⟩
  | false =>
    obtain ⟨m1, a1, w1, b1, s1, f1, _⟩ := h.alloc hf (.text s)
    exact ⟨.block m.next, m1, a1, by simp, w1, s1, f1, by rintro a ⟨⟩; exact b1⟩

theorem free_any {m : PotMemory} {M : Multiset Nat} {q : MemPtr} (hq : q ≠ .junk) (h : m.Within (q.blocks + M)) :
    ∃ m' : PotMemory, m.free q = ok m' ∧ m'.Within M ∧ m.SameOn m' M ∧ m'.fails = m.fails := by
  cases q with
  | junk => exact absurd rfl hq
  | null => exact ⟨m, rfl, h.as (by simp [MemPtr.blocks]), Store.SameOn.refl _ _, rfl⟩
  | block a =>
    obtain ⟨m', a1, w1, s1, f1, _⟩ := Store.Within.free (a := a) h
    exact ⟨m', a1, w1, s1, f1⟩

/-- Whichever allocations fail, a property is written or nothing changes. -/
theorem writeProperty_any {m : PotMemory} {M : Multiset Nat} {e : PEntry} {ps : List (String × String)} (h : m.Within (e.blocks + M)) (he : e.Good m ps) (key value : String) :
    ∃ (e' : PEntry) (m' : PotMemory) (qs : List (String × String)), m.writeProperty (.block e.addr) (some key) (some value) = ok m' ∧ m'.Within (e'.blocks + M) ∧ m.SameOn m' M ∧
      e'.addr = e.addr ∧ e'.Good m' qs ∧ (qs = ps ∨ qs = ps ++ [(key, value)]) := by
  obtain ⟨k, m1, a1, j1, w1, s1, f1, t1⟩ := newText_any h key
  obtain ⟨x, m2, a2, j2, w2, s2, f2, t2⟩ := newText_any w1 value
  have hle1 : e.blocks ≤ k.blocks + (e.blocks + M) := by
    rw [show (k.blocks + (e.blocks + M) : Multiset Nat) = e.blocks + (k.blocks + M) by abel]
    exact Multiset.le_add_right _ _
  have g2 : e.Good m2 ps := (he.keep (s1.mono (Multiset.le_add_right _ _))).keep (s2.mono hle1)
  -- the caller frees both texts
  have back : ∀ m3 : PotMemory, m3.Within (x.blocks + (k.blocks + (e.blocks + M))) → m2.SameOn m3 (e.blocks + M) →
      m2.setProperty (.block e.addr) k x = ok (true, m3) → ∃ (e' : PEntry) (m' : PotMemory) (qs : List (String × String)),
      m.writeProperty (.block e.addr) (some key) (some value) = ok m' ∧ m'.Within (e'.blocks + M) ∧ m.SameOn m' M ∧
      e'.addr = e.addr ∧ e'.Good m' qs ∧ (qs = ps ∨ qs = ps ++ [(key, value)]) := by
    intro m3 w3 s3 a3
    have w3' : m3.Within (k.blocks + (x.blocks + (e.blocks + M))) := w3.as (by abel)
    obtain ⟨m4, a4, w4, s4, f4⟩ := free_any j1 w3'
    obtain ⟨m5, a5, w5, s5, f5⟩ := free_any j2 w4
    refine ⟨e, m5, ps, ?_, w5, ?_, rfl, ?_, Or.inl rfl⟩
    · unfold Store.writeProperty
      simp only [a1, a2, a3, ok_bind, if_true, a4, a5]
    · intro b hb
      rw [s5 b (by simp [hb]), s4 b (by simp [hb]), s3 b (by simp [hb]), s2 b (by simp [hb]), s1 b (by simp [hb])]
    · refine ((g2.keep (s3.mono (Multiset.le_add_right _ _))).keep (s4.mono ?_)).keep (s5.mono (Multiset.le_add_right _ _))
      rw [show (x.blocks + (e.blocks + M) : Multiset Nat) = e.blocks + (x.blocks + M) by abel]
      exact Multiset.le_add_right _ _
  by_cases hk : k = .null
  · refine back m2 w2 (Store.SameOn.refl _ _) ?_
    unfold Store.setProperty
    simp only [isNull_ok j1, isNull_ok j2, hk, ok_bind]
    simp [MemPtr.isNull]
  by_cases hx : x = .null
  · refine back m2 w2 (Store.SameOn.refl _ _) ?_
    unfold Store.setProperty
    simp only [isNull_ok j1, isNull_ok j2, hx, ok_bind]
    simp [MemPtr.isNull]
  obtain ⟨ka, rfl⟩ : ∃ ka, k = .block ka := by
    cases k with
    | junk => exact absurd rfl j1
    | null => exact absurd rfl hk
    | block a => exact ⟨a, rfl⟩
  obtain ⟨va, rfl⟩ : ∃ va, x = .block va := by
    cases x with
    | junk => exact absurd rfl j2
    | null => exact absurd rfl hx
    | block a => exact ⟨a, rfl⟩
  have hset : ∀ r, m2.appendPair (.block e.listAt) (.block ka) (.block va) = r → m2.setProperty (.block e.addr) (.block ka) (.block va) = r := by
    intro r hr
    unfold Store.setProperty
    simp only [MemPtr.isNull, ok_bind, Bool.false_eq_true, if_false, Bool.or_false, Store.potentialAt_eq g2.cell]
    exact hr
  cases hf : m2.fails m2.next with
  | true =>
    obtain ⟨m3, a3, w3, s3, f3⟩ := appendPair_refused w2 (l := e.listAt) (k := ka) (x := va) hf
    exact back m3 w3 (fun b hb => s3 b (by
      rw [Multiset.mem_add] at hb
      simp only [Multiset.mem_add]
      tauto)) (hset _ a3)
  | false =>
    have w2' : m2.Within ({ka} + ({va} + ({e.listAt} + (plinkBlocks e.links + ({e.addr} + ({e.cardAt} + ({e.tempAt} + ({e.dataAt} + M)))))))) := w2.as (by
      unfold PEntry.blocks MemPtr.blocks; abel)
    obtain ⟨y, m3, a3, w3, s3, f3, g3, hx1, hx2⟩ := appendPair_spec w2' g2.pairs (by rw [s2 ka (by simp [MemPtr.blocks])]; exact t1 ka rfl) (t2 va rfl) hf
    refine ⟨{ e with links := e.links ++ [y] }, m3, ps ++ [(key, value)], ?_, ?_, ?_, rfl, ?_, Or.inr rfl⟩
    · unfold Store.writeProperty
      simp only [a1, a2, hset _ a3, ok_bind, Bool.false_eq_true, if_false]
    · refine w3.as ?_
      simp only [PEntry.blocks]
      abel
    · intro b hb
      rw [s3 b (by simp [hb]), s2 b (by simp [hb]), s1 b (by simp [hb])]
    · refine ⟨?_, ?_, g2.dim, g2.size, ?_, g3, ?_⟩
      · rw [s3 _ (by simp)]; exact g2.cell
      · rw [s3 _ (by simp)]; exact g2.row
      · rw [s3 _ (by simp)]; exact g2.data
      · simp only [List.map_append, List.map_cons, List.map_nil, g2.props, hx1, hx2]

/-- the blocks in use -/
theorem Store.within_used {B : Type} {m : Store B} (h : ∀ b, m.next ≤ b → m.blocks b = none) :
    m.Within ((List.range m.next).filter (fun b => (m.blocks b).isSome) : List Nat) := by
  refine ⟨Multiset.coe_nodup.2 (List.nodup_range.filter _), fun b => ?_, fun b hb => ?_⟩
  · rw [Multiset.mem_coe, List.mem_filter, List.mem_range]
    refine ⟨fun hb => ⟨?_, hb⟩, fun hb => hb.2⟩
    by_contra hlt
    rw [h b (by omega)] at hb
    cases hb
  · rw [Multiset.mem_coe, List.mem_filter, List.mem_range] at hb
    exact hb.1

/-- blocks that were not in use are still not in use -/
theorem Store.SameOn.all {B : Type} {m m' : Store B} {M : Multiset Nat} (h : m.Within M) (hs : m.SameOn m' M) (h' : m'.Within M) : m'.blocks = m.blocks := by
  funext b
  by_cases hb : b ∈ M
  · exact hs b hb
  · have h1 : ¬ (m.blocks b).isSome = true := fun e => hb ((h.used b).1 e)
    have h2 : ¬ (m'.blocks b).isSome = true := fun e => hb ((h'.used b).1 e)
    rw [Option.not_isSome_iff_eq_none.1 h1, Option.not_isSome_iff_eq_none.1 h2]

end Nip
