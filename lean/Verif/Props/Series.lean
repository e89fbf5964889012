import Verif.SeriesLemmas

/-!
# C54: observations set and read back
-/

namespace Nip.Props

open Nip Res

/-- Two variables, `1` with states `x`, `y` and `2` with states `no`, `yes`, `dunno`. -/
def demoTexts : VarTexts where
  symbol := fun v => if v = 1 then "A".toList else if v = 2 then "B".toList else "C".toList
  card := fun v => if v = 1 then 2 else 3
  names := fun v => if v = 1 then some ["x".toList, "y".toList] else some ["no".toList, "yes".toList, "dunno".toList]

/-- Three variables, of which `2` and `1` are observed, at three time steps; `-1` is a missing value. -/
def demoSeries : TimeSeries :=
  { numVars := 3, numHidden := 1, hidden := [3], numObserved := 2, observed := [2, 1], length := 3, data := [[0, 1], [2, -1], [1, 0]] }

/-- **C54.**  After setting an observation of an observed variable by the name of a state at a valid time, reading it back gives that name, and
whatever is read at another time or for another variable is as before. -/
theorem C54_set_get (x : VarTexts) (ts : TimeSeries) (hts : ts.WellFormed) (v : Nat) (hv : v ∈ ts.observed) (names : List (List Char))
    (hn : x.Named v names) (name : List Char) (hname : name ∈ names) (t : Nat) (ht : t < ts.length) :
    ∃ ts', ts.setObservation x v t name = ok (0, ts') ∧ ts'.getObservation x v t = ok (some name) ∧
      ∀ w t', ¬ (w = v ∧ t' = (t : Int)) → ts'.getObservation x w t' = ts.getObservation x w t' := by
  obtain ⟨j, hp, hj, _⟩ := (ts.place_spec hts.hidden v).1 hv
  have hjlt : j < ts.observed.length := (List.getElem?_eq_some_iff.mp hj).1
  have htd : t < ts.data.length := by rw [hts.rows]; exact ht
  have hrow : j < ts.data[t].length := by rw [hts.row _ (List.getElem_mem htd)]; exact hjlt
  let ts' : TimeSeries := { ts with data := ts.data.set t (ts.data[t].set j (names.idxOf name : Int)) }
  have hplace : ∀ w, ts'.place w = ts.place w := fun w => rfl
  have hidx : names.idxOf name < names.length := List.idxOf_lt_length_iff.mpr hname
  refine ⟨ts', ?_, ?_, ?_⟩
  · unfold TimeSeries.setObservation
    rw [hp, x.stateIndex_eq v names hn, if_pos hname]
    simp only [ok_bind]
    rw [if_neg (by omega), if_neg (by omega), Int.toNat_natCast, rd_lt htd, ok_bind, wr_lt hrow, ok_bind, wr_lt htd, ok_bind]
  · unfold TimeSeries.getObservation
    rw [hplace, hp]
    simp only [ok_bind]
    rw [if_neg (by have : (t : Int) < ts'.length := by exact_mod_cast ht
                   omega), Int.toNat_natCast]
    have h1 : t < ts'.data.length := by simp [ts', htd]
    have h2 : ts'.data[t] = ts.data[t].set j (names.idxOf name : Int) := by simp [ts']
    rw [rd_lt h1, ok_bind, h2, rd_lt (by simpa using hrow), ok_bind]
    simp only [List.getElem_set_self]
    rw [x.stateName_eq v names hn.1 _ hidx, ok_bind, List.getElem_idxOf]
  · intro w t' hne
    unfold TimeSeries.getObservation
    rw [hplace]
    cases hw : ts.place w with
    | ub => rfl
    | ok o =>
      cases o with
      | none => rfl
      | some k =>
        simp only [ok_bind]
        have hlen : ts'.length = ts.length := rfl
        rw [hlen]
        by_cases hout : t' < 0 ∨ (ts.length : Int) ≤ t'
        · rw [if_pos hout, if_pos hout]
        · rw [if_neg hout, if_neg hout]
          have h0 : t'.toNat < ts.data.length := by rw [hts.rows]; omega
          have h1 : t'.toNat < ts'.data.length := by simp only [ts', List.length_set]; exact h0
          rw [rd_lt h0, rd_lt h1, ok_bind, ok_bind]
          have hget : ts'.data[t'.toNat] = if t = t'.toNat then ts.data[t].set j (names.idxOf name : Int) else ts.data[t'.toNat] := by
            simp only [ts', List.getElem_set]
          rw [hget]
          by_cases htt : t = t'.toNat
          · rw [if_pos htt]
            subst htt
            have hwv : w ≠ v := by
              rintro rfl
              exact hne ⟨rfl, by omega⟩
            have hkj : j ≠ k := by
              rintro rfl
              by_cases hwm : w ∈ ts.observed
              · obtain ⟨k', hk', hk'', _⟩ := (ts.place_spec hts.hidden w).1 hwm
                rw [hw] at hk'
                cases hk'
                rw [hj] at hk''
                exact hwv (Option.some.inj hk'').symm
              · rw [(ts.place_spec hts.hidden w).2 hwm] at hw
                cases hw
            have : rd (ts.data[t'.toNat].set j (names.idxOf name : Int)) k = rd ts.data[t'.toNat] k := by
              unfold rd
              rw [List.getElem?_set_ne hkj]
            rw [this]
          · rw [if_neg htt]

/-- **C54.**  A variable that is not observed, or a text that is no name of a state of the variable, is refused with an error, and nothing is
changed. -/
theorem C54_refused (x : VarTexts) (ts : TimeSeries) (hts : ts.WellFormed) (v : Nat) (names : List (List Char)) (hn : x.Named v names)
    (name : List Char) (t : Int) (h : v ∉ ts.observed ∨ name ∉ names) : ts.setObservation x v t name = ok (EINVAL, ts) := by
  unfold TimeSeries.setObservation
  rw [x.stateIndex_eq v names hn]
  by_cases hv : v ∈ ts.observed
  · obtain ⟨j, hp, _⟩ := (ts.place_spec hts.hidden v).1 hv
    rw [hp, if_neg (h.resolve_left (fun h => h hv))]
    rfl
  · rw [(ts.place_spec hts.hidden v).2 hv]
    rfl

/-- **C54.**  A variable that is not observed, or a time outside the series, reads back as absent. -/
theorem C54_absent (x : VarTexts) (ts : TimeSeries) (hts : ts.WellFormed) (v : Nat) (t : Int)
    (h : v ∉ ts.observed ∨ t < 0 ∨ (ts.length : Int) ≤ t) : ts.getObservation x v t = ok none := by
  unfold TimeSeries.getObservation
  by_cases hv : v ∈ ts.observed
  · obtain ⟨j, hp, _⟩ := (ts.place_spec hts.hidden v).1 hv
    rw [hp]
    simp only [ok_bind]
    rw [if_pos (h.resolve_left (fun h => h hv))]
  · rw [(ts.place_spec hts.hidden v).2 hv]
    rfl

/-- **C54** is false for missing observations: reading any of them leaves the array of state names. -/
theorem C54_missing_refuted (x : VarTexts) (ts : TimeSeries) (hts : ts.WellFormed) (v t j : Nat) (ht : t < ts.length)
    (hj : ts.observed[j]? = some v) (hd : ts.observed.Nodup) (row : List Int) (hr : ts.data[t]? = some row) (hm : row[j]? = some (-1)) :
    ts.getObservation x v t = ub := by
  obtain ⟨k, hp, hk, _⟩ := (ts.place_spec hts.hidden v).1 (List.mem_of_getElem? hj)
  have hjk : k = j := by
    have h1 := (List.getElem?_eq_some_iff.mp hj)
    have h2 := (List.getElem?_eq_some_iff.mp hk)
    exact (List.Nodup.getElem_inj_iff hd).mp (h2.2.trans h1.2.symm)
  subst hjk
  unfold TimeSeries.getObservation
  rw [hp]
  simp only [ok_bind]
  rw [if_neg (by omega), Int.toNat_natCast, rd_eq_ok.mpr hr, ok_bind, rd_eq_ok.mpr hm, ok_bind]
  unfold VarTexts.stateName
  cases x.names v <;> rfl

/-- Setting at a time outside the series is not refused but leaves the array. -/
theorem C54_set_outside (x : VarTexts) (ts : TimeSeries) (hts : ts.WellFormed) (v : Nat) (hv : v ∈ ts.observed) (names : List (List Char))
    (hn : x.Named v names) (name : List Char) (hname : name ∈ names) (t : Int) (ht : t < 0 ∨ (ts.length : Int) ≤ t) :
    ts.setObservation x v t name = ub := by
  obtain ⟨j, hp, hj, _⟩ := (ts.place_spec hts.hidden v).1 hv
  unfold TimeSeries.setObservation
  rw [hp, x.stateIndex_eq v names hn, if_pos hname]
  simp only [ok_bind]
  rw [if_neg (by omega)]
  by_cases h0 : t < 0
  · rw [if_pos h0]
  · rw [if_neg h0, rd_ge (by rw [hts.rows]; omega)]
    rfl

example : demoSeries.WellFormed := ⟨by decide, by decide, by decide, by decide⟩

example : 1 ∈ demoSeries.observed ∧ demoTexts.Named 1 ["x".toList, "y".toList] ∧ "y".toList ∈ ["x".toList, "y".toList] ∧
    demoSeries.setObservation demoTexts 1 1 "y".toList = ok (0, { demoSeries with data := [[0, 1], [2, 1], [1, 0]] }) := by
  refine ⟨by decide, ⟨by decide, by decide⟩, by decide, by decide⟩

example : demoSeries.setObservation demoTexts 1 1 "z".toList = ok (EINVAL, demoSeries) ∧
    demoSeries.getObservation demoTexts 2 1 = ok (some "dunno".toList) ∧ demoSeries.getObservation demoTexts 1 1 = ub ∧
    demoSeries.getObservation demoTexts 3 1 = ok none := by decide

end Nip.Props
