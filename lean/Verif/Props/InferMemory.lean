import Verif.InferMemoryLemmas
import Verif.Props.Dynamic

/-!
# C112: inference when memory runs out

`fails i` says that request number `i` for memory is refused.  The counters before a call are arbitrary, so the call may come anywhere in a run.
-/

namespace Nip.Props

open Nip Res Spec

variable {K : Type} [Field K] [LinearOrder K] [IsStrictOrderedRing K]

/-- the number of separators that have variables -/
def borders (m : Model K) : Nat := (m.tree.sepsets.filter (fun s => s.vars ≠ [])).length

theorem not_refused {fails : Nat → Bool} {a b : Nat} (h : Granted fails a b) : ¬ Refused fails a b := by
  rintro ⟨i, h1, h2, h3⟩
  rw [h i h1 h2] at h3
  cases h3

/-- **C112**, `make_consistent`: four requests for every separator with variables.  If all are granted, the model is the one of unlimited memory and everything is given back; if any
is refused, whichever it is, the behaviour is undefined. -/
theorem C112_consistent (ptr : Nat) {f : NetFile K} (hf : f.Valid) {ops : List (Op K)} (ho : ∀ op ∈ ops, op.Valid f.net) {m : Model K}
    (hm : NetFile.runFile ptr f ops = ok m) :
    ∃ m', m.makeConsistent = ok m' ∧ ∀ (fails : Nat → Bool) (w : Loans),
      (Granted fails w.tried (w.tried + 4 * borders m) → m.makeConsistentIn fails w = ok (m', { tried := w.tried + 4 * borders m, held := w.held })) ∧
      (Refused fails w.tried (w.tried + 4 * borders m) → m.makeConsistentIn fails w = ub) := by
  obtain ⟨m1, h1, h2, _⟩ := runFile_spec ptr hf ho
  rw [hm] at h1
  simp only [ok.injEq] at h1
  subst h1
  obtain ⟨m', hm', _⟩ := Model.makeConsistent_spec h2
  refine ⟨m', hm', fun fails w => ?_⟩
  obtain ⟨m'', n, rfl, g2, g3⟩ := Model.makeConsistentIn_spec fails w h2
  rw [hm'] at g2
  simp only [ok.injEq] at g2
  subst g2
  rcases g3 with ⟨g3, g4⟩ | ⟨g3, g4⟩
  · exact ⟨fun _ => g3, fun hr => absurd hr (not_refused g4)⟩
  · exact ⟨fun hg => absurd g4 (not_refused hg), fun _ => g3⟩

/-- **C112**, the refused request is fatal wherever it is: for each of the requests there is a run in which only this one is refused. -/
theorem C112_each_request (ptr : Nat) {f : NetFile K} (hf : f.Valid) {ops : List (Op K)} (ho : ∀ op ∈ ops, op.Valid f.net) {m : Model K}
    (hm : NetFile.runFile ptr f ops = ok m) (w : Loans) {i : Nat} (hi : i < 4 * borders m) :
    m.makeConsistentIn (fun j => decide (j = w.tried + i)) w = ub := by
  obtain ⟨_, _, h⟩ := C112_consistent ptr hf ho hm
  exact (h _ w).2 ⟨w.tried + i, by omega, by omega, by simp⟩

/-- **C112**, `get_probability`: one request, or two if the clique of the family is not known yet.  If all are granted, the answer and the model are those of unlimited memory, and one
block more is in use; if one is refused, the answer is NULL, nothing more is asked for, and the model and the blocks in use are as before. -/
theorem C112_probability (ptr : Nat) {f : NetFile K} (hf : f.Valid) {ops : List (Op K)} (ho : ∀ op ∈ ops, op.Valid f.net) {m : Model K}
    (hm : NetFile.runFile ptr f ops = ok m) {v : Nat} (hv : v ∈ f.vars) :
    ∃ r m' n, m.getProbability v = ok (some r, m') ∧ n = (if (m.var v).familyClique = none then 2 else 1) ∧ ∀ (fails : Nat → Bool) (w : Loans),
      (Granted fails w.tried (w.tried + n) → m.getProbabilityIn fails w v = ok ((some r, m'), { tried := w.tried + n, held := w.held + 1 })) ∧
      (Refused fails w.tried (w.tried + n) → m.getProbabilityIn fails w v = ok ((none, m), { tried := w.tried + (if fails w.tried then 1 else 2), held := w.held })) := by
  obtain ⟨m1, h1, h2, _⟩ := runFile_spec ptr hf ho
  rw [hm] at h1
  simp only [ok.injEq] at h1
  subst h1
  have hv' : v ∈ f.net.vars := hv
  obtain ⟨c, r, hp, _⟩ := Model.getProbability_run h2 hv'
  refine ⟨r, m.memo v c, _, hp, rfl, fun fails w => ?_⟩
  obtain ⟨r', m', n, rfl, g2, g3⟩ := Model.getProbabilityIn_spec fails w h2 hv'
  rw [hp] at g2
  simp only [ok.injEq, Prod.mk.injEq, Option.some.injEq] at g2
  obtain ⟨rfl, rfl⟩ := g2
  rcases g3 with ⟨g3, g4⟩ | ⟨g3, g4⟩
  · exact ⟨fun _ => g3, fun hr => absurd hr (not_refused g4)⟩
  · exact ⟨fun hg => absurd g4 (not_refused hg), fun _ => g3⟩

/-! ## examples -/

/-- what is left after seeing variable 3 in state 0, of the network in which 2 is a parent of 1 and 1 of 3 -/
def seenOnce : List (Op ℚ) := [.observe 3 0]

theorem seenOnce_valid : ∀ op ∈ seenOnce, op.Valid hmm.net := by
  intro op hop
  simp only [seenOnce, List.mem_singleton] at hop
  subst hop
  show (3 : Nat) ∈ hmm.vars
  decide

/-- The tree of this network has one separator, which has a variable: four requests.  With all of them granted nothing stays allocated; when the last one is refused, the behaviour is
undefined. -/
example : ∃ m m', NetFile.runFile 8 hmm seenOnce = ok m ∧ borders m = 1 ∧ m.makeConsistent = ok m' ∧
    m.makeConsistentIn (fun _ => false) ⟨0, 5⟩ = ok (m', ⟨4, 5⟩) ∧ m.makeConsistentIn (fun j => decide (j = 3)) ⟨0, 5⟩ = ub := by
  obtain ⟨m, hm, _⟩ := runFile_spec 8 hmm_valid seenOnce_valid
  have hb : borders m = 1 := by
    have h : (match NetFile.runFile 8 hmm seenOnce with | ok m => borders m | ub => 0) = 1 := by decide +kernel
    rw [hm] at h; exact h
  obtain ⟨m', hm', h⟩ := C112_consistent 8 hmm_valid seenOnce_valid hm
  have h1 := (h (fun _ => false) ⟨0, 5⟩).1 (fun _ _ _ => rfl)
  have h2 := C112_each_request 8 hmm_valid seenOnce_valid hm ⟨0, 5⟩ (i := 3) (by omega)
  rw [hb] at h1
  exact ⟨m, m', hm, hb, hm', h1, h2⟩

/-- The tree of a network of two unrelated variables has a separator without variables: no request, and inference succeeds though every request would be refused. -/
example : ∃ m m', NetFile.runFile 8 unlinked [] = ok m ∧ m.tree.sepsets.length = 1 ∧ borders m = 0 ∧ m.makeConsistent = ok m' ∧
    m.makeConsistentIn (fun _ => true) ⟨0, 5⟩ = ok (m', ⟨0, 5⟩) := by
  have hv : ∀ op ∈ ([] : List (Op ℚ)), op.Valid unlinked.net := by simp
  obtain ⟨m, hm, _⟩ := runFile_spec 8 unlinked_valid hv
  have hb : borders m = 0 ∧ m.tree.sepsets.length = 1 := by
    have h : (match NetFile.runFile 8 unlinked [] with | ok m => (borders m, m.tree.sepsets.length) | ub => (9, 9)) = (0, 1) := by decide +kernel
    rw [hm] at h
    simp only [Prod.mk.injEq] at h
    exact h
  obtain ⟨m', hm', h⟩ := C112_consistent 8 unlinked_valid hv hm
  have h1 := (h (fun _ => true) ⟨0, 5⟩).1 (fun i h1 h2 => by rw [hb.1] at h2; simp only at h1 h2; omega)
  rw [hb.1] at h1
  exact ⟨m, m', hm, hb.2, hb.1, hm', h1⟩

/-- Asking for variable 3: the family is known after the observation, so there is one request; refused, the answer is NULL. -/
example : ∃ m, NetFile.runFile 8 hmm seenOnce = ok m ∧ (m.var 3).familyClique ≠ none ∧
    (∃ r m', m.getProbabilityIn (fun _ => false) ⟨0, 5⟩ 3 = ok ((some r, m'), ⟨1, 6⟩)) ∧
    m.getProbabilityIn (fun j => decide (j = 0)) ⟨0, 5⟩ 3 = ok ((none, m), ⟨1, 5⟩) := by
  obtain ⟨m, hm, _⟩ := runFile_spec 8 hmm_valid seenOnce_valid
  have hb : (m.var 3).familyClique ≠ none := by
    have h : (match NetFile.runFile 8 hmm seenOnce with | ok m => (m.var 3).familyClique.isSome | ub => false) = true := by decide +kernel
    rw [hm] at h
    intro h'
    simp only [h', Option.isSome_none] at h
    cases h
  obtain ⟨r, m', n, _, hn, h⟩ := C112_probability 8 hmm_valid seenOnce_valid hm (v := 3) (by decide)
  rw [if_neg hb] at hn
  subst hn
  refine ⟨m, hm, hb, ⟨r, m', (h (fun _ => false) ⟨0, 5⟩).1 (fun _ _ _ => rfl)⟩, ?_⟩
  exact (h (fun j => decide (j = 0)) ⟨0, 5⟩).2 ⟨0, le_refl _, by simp, rfl⟩

end Nip.Props
