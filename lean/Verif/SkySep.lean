import Verif.RectFramesProps

/-!
# Separation in space of two positions on the sky (astropysics/coords/funcs.py, `sky_sep_to_3d_sep`, 414-447) (C245)

An argument is a coordinate object, or something from which an equatorial coordinate is made (`conv`, which may fail).  Objects of different systems are subtracted as they
are (coordsys.py 1489-1513).
-/

namespace Verif.SkySep

open Verif.LatLong Verif.RectFrames

/-- `EquatorialCoordinatesEquinox(pos)` unless it is a coordinate, funcs.py 442-445. -/
def asCoord {α ε : Type} (conv : α → Except ε LL) : LL ⊕ α → Except ε LL
  | .inl p => .ok p
  | .inr a => conv a

/-- `sky_sep_to_3d_sep(pos1,pos2,d1,d2)`, funcs.py 440-447. -/
noncomputable def skySep {α ε : Type} (conv : α → Except ε LL) (pos1 pos2 : LL ⊕ α) (d1 d2 : ℝ) : Except ε ℝ :=
  match asCoord conv pos1 with
  | .error e => .error e
  | .ok p => match asCoord conv pos2 with
    | .error e => .error e
    | .ok q => .ok (separation3d (sub p q) d1 d2)

/-- **C245.** The result is the distance in space of the two points that lie in the two directions at the two distances; it fails if one of the arguments is no position, the
first being looked at first. -/
theorem distance {α ε : Type} (conv : α → Except ε LL) (a b : LL ⊕ α) (d1 d2 : ℝ) :
    (∀ p q, asCoord conv a = .ok p → asCoord conv b = .ok q → skySep conv a b d1 d2 = .ok (dist (d1 • dir p) (d2 • dir q))) ∧
    (∀ e, asCoord conv a = .error e → skySep conv a b d1 d2 = .error e) ∧
    (∀ p e, asCoord conv a = .ok p → asCoord conv b = .error e → skySep conv a b d1 d2 = .error e) := by
  refine ⟨fun p q hp hq => ?_, fun e h => ?_, fun p e hp hq => ?_⟩
  · simp only [skySep, hp, hq, separation3d_exact, dist_eq_norm]
  · simp only [skySep, h]
  · simp only [skySep, hp, hq]

/-- **C245.** Exchanging the two objects with their distances changes nothing. -/
theorem symm {α ε : Type} (conv : α → Except ε LL) (p q : LL) (d1 d2 : ℝ) : skySep conv (.inl p) (.inl q) d1 d2 = skySep conv (.inl q) (.inl p) d2 d1 := by
  rw [(distance conv (.inl p) (.inl q) d1 d2).1 p q rfl rfl, (distance conv (.inl q) (.inl p) d2 d1).1 q p rfl rfl, dist_comm]

/-- **C245.** For distances that are not negative, the separation is between the difference and the sum of the distances, it is the difference for the same
direction and the sum for opposite ones; it is zero exactly when both are zero, or the distances and the directions are the same; and it obeys the triangle inequality. -/
theorem bounds {α ε : Type} (conv : α → Except ε LL) (p q : LL) (d1 d2 : ℝ) (h1 : 0 ≤ d1) (h2 : 0 ≤ d2) :
    ∃ s, skySep conv (.inl p) (.inl q) d1 d2 = .ok s ∧ |d1 - d2| ≤ s ∧ s ≤ d1 + d2 ∧ (dir p = dir q → s = |d1 - d2|) ∧ (dir p = -dir q → s = d1 + d2) ∧
      (s = 0 ↔ (d1 = 0 ∧ d2 = 0) ∨ (d1 = d2 ∧ dir p = dir q)) ∧
      (∀ r d3, ∃ t u, skySep conv (.inl p) (.inl r) d1 d3 = .ok t ∧ skySep conv (.inl r) (.inl q) d3 d2 = .ok u ∧ s ≤ t + u) := by
  have n : ∀ (d : ℝ) (x : LL), 0 ≤ d → ‖d • dir x‖ = d := fun d x h => by rw [norm_smul, Verif.LatLong.norm_dir, mul_one, Real.norm_of_nonneg h]
  refine ⟨_, (distance conv (.inl p) (.inl q) d1 d2).1 p q rfl rfl, ?_, ?_, ?_, ?_, ?_, ?_⟩
  · have := abs_norm_sub_norm_le (d1 • dir p) (d2 • dir q)
    rwa [n d1 p h1, n d2 q h2, ← dist_eq_norm] at this
  · have := norm_sub_le (d1 • dir p) (d2 • dir q)
    rwa [n d1 p h1, n d2 q h2, ← dist_eq_norm] at this
  · intro h
    rw [h, dist_eq_norm, ← sub_smul, norm_smul, Verif.LatLong.norm_dir, mul_one, Real.norm_eq_abs]
  · intro h
    rw [h, dist_eq_norm, smul_neg, ← neg_add', norm_neg, ← add_smul, norm_smul, Verif.LatLong.norm_dir, mul_one, Real.norm_of_nonneg (add_nonneg h1 h2)]
  · rw [dist_eq_zero]
    constructor
    · intro h
      have e : d1 = d2 := by rw [← n d1 p h1, h, n d2 q h2]
      by_cases h0 : d1 = 0
      · exact .inl ⟨h0, e ▸ h0⟩
      · refine .inr ⟨e, ?_⟩
        rw [← e] at h
        exact smul_right_injective _ h0 h
    · rintro (⟨rfl, rfl⟩ | ⟨rfl, h⟩)
      · simp
      · rw [h]
  · intro r d3
    exact ⟨_, _, (distance conv (.inl p) (.inl r) d1 d3).1 p r rfl rfl, (distance conv (.inl r) (.inl q) d3 d2).1 r q rfl rfl, dist_triangle _ _ _⟩

/-! ## A concrete case -/

example (p : LL) : skySep (α := ℕ) (ε := ℕ) (fun n => .error n) (.inl p) (.inl p) 20 25 = .ok 5 := by
  obtain ⟨s, h, -, -, h3, -⟩ := bounds (α := ℕ) (ε := ℕ) (fun n => .error n) p p 20 25 (by norm_num) (by norm_num)
  rw [h, h3 rfl]; norm_num

end Verif.SkySep
