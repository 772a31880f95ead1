import Verif.AngleDms

/-!
# C25: hours, minutes and seconds, for every sign
-/

namespace Verif.Angle

open Real

/-- **C25** for hours, exactly: writing whole hours, whole minutes and seconds (0 ≤ m,s < 60) and reading them
back gives the triple iff the hours are not negative or the minutes and seconds are both zero. -/
theorem hms_set_get_iff (v : ℝ) (h m : ℤ) (s : ℝ) (hm : 0 ≤ m) (hm' : m < 60) (hs : 0 ≤ s) (hs' : s < 60) :
    getHms (setHms ⟨v, none⟩ h m s).1 = (h, m, s) ↔ 0 ≤ h ∨ (m = 0 ∧ s = 0) := by
  constructor
  · intro he
    by_contra hc
    push Not at hc
    obtain ⟨hh, hz⟩ := hc
    have hval : degrees (setHms ⟨v, none⟩ h m s).1 / 15 = h + m / 60 + s / 3600 := by
      rw [setHms_none, degrees_of_rad]; ring
    simp only [getHms, hval, Prod.mk.injEq] at he
    obtain ⟨h1, _, _⟩ := he
    have hmr : (0:ℝ) ≤ m := by exact_mod_cast hm
    have hneg : (h:ℝ) ≤ -1 := by exact_mod_cast (by omega : h ≤ -1)
    have hpos : (0:ℝ) < m / 60 + s / 3600 := by
      rcases hm.lt_or_eq with h0 | h0
      · have : (0:ℝ) < m := by exact_mod_cast h0
        positivity
      · have : 0 < s := lt_of_le_of_ne hs (fun h' => hz h0.symm h'.symm)
        have : (0:ℝ) < s / 3600 := by positivity
        have : (0:ℝ) ≤ (m:ℝ) / 60 := by positivity
        linarith
    have hm59 : (m:ℝ) ≤ 59 := by exact_mod_cast (by omega : m ≤ 59)
    have hlt : (h:ℝ) + m / 60 + s / 3600 < 0 := by
      linarith
    rw [pyint, if_pos hlt] at h1
    have h2 := Int.le_ceil ((h:ℝ) + m / 60 + s / 3600)
    rw [h1] at h2
    linarith
  · rintro (hh | ⟨rfl, rfl⟩)
    · exact hms_set_get v h m s hh hm hm' hs hs'
    · have hval : degrees (setHms ⟨v, none⟩ h 0 0).1 / 15 = h := by
        rw [setHms_none, degrees_of_rad]; ring
      have hp : pyint (h:ℝ) = h := by unfold pyint; split <;> simp
      have hp0 : pyint (0:ℝ) = 0 := by unfold pyint; simp
      simp [getHms, hval, hp, hp0]

end Verif.Angle
