import Verif.Errors
import Mathlib.Data.List.Induction

/-!
# C55: error bookkeeping

The specification is a view of the history alone: the reports after the last reset.
-/

namespace Nip.Props

open Nip Res

/-- The codes reported since the last reset, latest last: what an observer of the history writes down. -/
def sinceReset : List ErrorCall → List Int
  | [] => []
  | c :: l =>
    if ErrorCall.reset ∈ l then sinceReset l
    else match c with
      | .reset => sinceReset l
      | .report e => e :: sinceReset l

/-- After the history, the last-error query gives the code of the most recent report since the last reset (zero if there is none), and the
counter their number. -/
def Bookkeeping (l : List ErrorCall) : Prop :=
  ∃ e, ErrorState.start.calls l = ok e ∧ e.checkType = (sinceReset l).getLast?.getD 0 ∧ e.checkCounter = (sinceReset l).length

theorem sinceReset_report (l : List ErrorCall) (c : Int) : sinceReset (l ++ [.report c]) = sinceReset l ++ [c] := by
  induction l with
  | nil => simp [sinceReset]
  | cons d l ih =>
    simp only [List.cons_append, sinceReset, List.mem_append, List.mem_singleton, reduceCtorEq, or_false, ih]
    split
    · rfl
    · cases d <;> rfl

theorem sinceReset_reset (l : List ErrorCall) : sinceReset (l ++ [.reset]) = [] := by
  induction l with
  | nil => simp [sinceReset]
  | cons d l ih => simp [sinceReset, ih]

theorem calls_snoc (e : ErrorState) (l : List ErrorCall) (c : ErrorCall) :
    e.calls (l ++ [c]) = (e.calls l).bind (fun e => e.call c) := by
  unfold ErrorState.calls
  rw [List.foldlM_append]
  cases h : List.foldlM ErrorState.call e l with
  | ub => rfl
  | ok a =>
    show (List.foldlM ErrorState.call a [c]) = a.call c
    simp only [List.foldlM_cons, List.foldlM_nil]
    cases a.call c <;> rfl

/-- Every history in which no stretch between resets has more than `INT_MAX` reports.  What is missing from C55: histories with more than `INT_MAX` reports since a reset, for which it is false (`C55_refuted`). -/
theorem C55_history_partial (l : List ErrorCall)
    (h : ∀ l' : List ErrorCall, l' <+: l → (sinceReset l').length ≤ intMax) : Bookkeeping l := by
  induction l using List.reverseRecOn with
  | nil => exact ⟨ErrorState.start, rfl, rfl, rfl⟩
  | append_singleton l c ih =>
    obtain ⟨e, he, h1, h2⟩ := ih (fun l' hl => h l' (hl.trans (List.prefix_append l [c])))
    unfold Bookkeeping
    rw [calls_snoc, he]
    cases c with
    | reset => exact ⟨_, rfl, by rw [sinceReset_reset]; rfl, by rw [sinceReset_reset]; rfl⟩
    | report c =>
      have hl := h _ (List.prefix_refl _)
      rw [sinceReset_report, List.length_append] at hl
      have h2' : e.counter = (sinceReset l).length := h2
      refine ⟨⟨c, e.counter + 1⟩, ?_, ?_, ?_⟩
      · simp only [ok_bind', ErrorState.call, ErrorState.report]
        rw [if_neg (by simp at hl; omega)]
        rfl
      · rw [sinceReset_report]; simp [ErrorState.checkType]
      · rw [sinceReset_report]; simp [ErrorState.checkCounter, h2']

/-- Reporting returns the code it was given, whenever it returns. -/
theorem C55_returns_code (e : ErrorState) (c : Int) (r : Int × ErrorState) (h : e.report c = ok r) : r.1 = c := by
  unfold ErrorState.report at h
  split at h
  · cases h
  · cases h; rfl

theorem sinceReset_replicate (n : Nat) (c : Int) : sinceReset (List.replicate n (.report c)) = List.replicate n c := by
  induction n with
  | zero => rfl
  | succ n ih => simp [List.replicate_succ, sinceReset, ih, List.mem_replicate]

/-- The counter is an `int`: one report too many since the last reset and counting is undefined. -/
theorem C55_refuted : ∃ l : List ErrorCall, ErrorState.start.calls l = ub := by
  refine ⟨List.replicate (intMax + 1) (.report 22), ?_⟩
  have key : ∀ n, n ≤ intMax → ∃ e, ErrorState.start.calls (List.replicate n (.report 22)) = ok e ∧ e.counter = n := by
    intro n hn
    obtain ⟨e, he, _, h2⟩ := C55_history_partial (List.replicate n (.report 22)) (fun l' hl => by
      have := (List.prefix_replicate_iff.mp hl)
      rw [this.2, sinceReset_replicate, List.length_replicate]
      exact Nat.le_trans this.1 hn)
    exact ⟨e, he, by have h2' : e.counter = _ := h2; rw [h2', sinceReset_replicate, List.length_replicate]⟩
  obtain ⟨e, he, hc⟩ := key intMax (Nat.le_refl _)
  rw [List.replicate_succ', calls_snoc, he]
  simp only [ok_bind', ErrorState.call, ErrorState.report, hc]
  rw [if_pos (by omega)]
  rfl

/-- A history with resets and reports of several codes: the code and the number since the last reset. -/
example : ErrorState.start.calls [.report 22, .reset, .report 12, .report 5] = ok ⟨5, 2⟩ ∧
    sinceReset [.report 22, .reset, .report 12, .report 5] = [12, 5] := by decide

example : ∀ l' : List ErrorCall, l' <+: [.report 22, .reset, .report 12, .report 5] → (sinceReset l').length ≤ intMax := by
  intro l' h
  have hl := h.length_le
  have : ∀ l : List ErrorCall, (sinceReset l).length ≤ l.length := by
    intro l
    induction l with
    | nil => simp [sinceReset]
    | cons c l ih =>
      simp only [sinceReset]
      split
      · exact Nat.le_trans ih (by simp)
      · cases c <;> simp <;> omega
  have := this l'
  simp at hl
  unfold intMax
  omega

end Nip.Props
