import Mathlib.Data.Real.Basic
import Mathlib.Tactic.FieldSimp
import Mathlib.Tactic.Ring
import Mathlib.Tactic.Linarith
import Mathlib.Tactic.Positivity
import Mathlib.Tactic.NormNum

/-!
# Air and vacuum wavelengths (astropysics/spec.py 1909-1966)

`air_to_vacuum`, `vacuum_to_air`.  Numbers are reals (a double is idealised); wavelengths are in angstroms.
-/

namespace Verif.AirVac

/-- `convfact` of `air_to_vacuum`, spec.py 1924-1926. -/
noncomputable def airFact (l : ℝ) : ℝ :=
  let sig2 := (10000 / l) ^ 2
  1 + 0.000064328 + 0.0294981 / (146 - sig2) + 0.00025540 / (41 - sig2)

/-- One element of `air_to_vacuum`, spec.py 1927-1933. -/
noncomputable def airElem (nouvconv : Bool) (l : ℝ) : ℝ :=
  if nouvconv then if l ≥ 2000 then l * airFact l else l else l * airFact l

/-- `convfact` of `vacuum_to_air`, spec.py 1954-1956. -/
noncomputable def vacFact (v : ℝ) : ℝ :=
  let wave2 := v * v
  1 + 0.0002735182 + 131.4182 / wave2 + 276249000 / (wave2 * wave2)

/-- One element of `vacuum_to_air`, spec.py 1957-1964: the division is done, then undone by a multiplication. -/
noncomputable def vacElem (nouvconv : Bool) (v : ℝ) : ℝ :=
  let new := v / vacFact v
  if nouvconv then if new < 2000 then new * vacFact v else new else new

/-- What is passed in or returned: a number or an array. -/
inductive Val
  | scalar (x : ℝ)
  | array (xs : List ℝ)

/-- `np.array(…, ndmin=n)` followed by `isscal = shape == ()` and `ravel`, spec.py 1918-1922 and 1947-1951: the elements
and whether the value still counts as a scalar. -/
def intoArray (ndmin : Nat) : Val → List ℝ × Bool
  | .scalar x => ([x], ndmin == 0)
  | .array xs => (xs, false)

/-- `newwl[0] if isscal else newwl`, spec.py 1934, 1966. -/
def giveBack (xs : List ℝ) (isscal : Bool) : Val :=
  match isscal, xs with
  | true, x :: _ => .scalar x
  | _, xs => .array xs

/-- `air_to_vacuum`, spec.py 1909-1934: `ndmin=1`. -/
noncomputable def airToVacuum (w : Val) (nouvconv : Bool) : Val :=
  let a := intoArray 1 w
  giveBack (a.1.map (airElem nouvconv)) a.2

/-- `vacuum_to_air`, spec.py 1936-1966: no `ndmin`. -/
noncomputable def vacuumToAir (w : Val) (nouvconv : Bool) : Val :=
  let a := intoArray 0 w
  giveBack (a.1.map (vacElem nouvconv)) a.2

/-! ## Specification -/

/-- The refractive index of standard air at wavelength `l` (angstroms, in air), as a function of the squared wave number
`s` (inverse square microns). -/
noncomputable def index (s : ℝ) : ℝ := 1 + 64.328e-6 + 29498.1e-6 / (146 - s) + 255.4e-6 / (41 - s)

/-- The squared wave number (inverse square microns) of a wavelength in angstroms. -/
noncomputable def waveNumber2 (l : ℝ) : ℝ := 1 / (l / 10000) ^ 2

theorem airFact_eq (l : ℝ) : airFact l = index (waveNumber2 l) := by
  have : (10000 / l) ^ 2 = 1 / (l / 10000) ^ 2 := by
    by_cases h : l = 0
    · simp [h]
    · field_simp
  simp only [airFact, index, waveNumber2, this]
  norm_num

theorem wn_pos {l : ℝ} (h : 0 < l) : 0 < waveNumber2 l := by unfold waveNumber2; positivity

theorem wn_le {l : ℝ} (h : 2000 ≤ l) : waveNumber2 l ≤ 25 := by
  unfold waveNumber2
  rw [div_le_iff₀ (by positivity)]
  nlinarith [mul_le_mul h h (by norm_num) (by linarith)]

/-- `index` grows with the wave number as long as that is below 41. -/
theorem index_mono {s t : ℝ} (h : s ≤ t) (ht : t ≤ 25) : index s ≤ index t := by
  unfold index
  have h1 : 29498.1e-6 / (146 - s) ≤ 29498.1e-6 / (146 - t) := div_le_div_of_nonneg_left (by norm_num) (by linarith) (by linarith)
  have h2 : 255.4e-6 / (41 - s) ≤ 255.4e-6 / (41 - t) := div_le_div_of_nonneg_left (by norm_num) (by linarith) (by linarith)
  linarith

theorem index_bounds {s : ℝ} (h0 : 0 ≤ s) (h : s ≤ 25) : 1.000272 < index s ∧ index s < 1.000325 := by
  have h1 := index_mono h0 h
  have h2 := index_mono h (le_refl 25)
  constructor
  · refine lt_of_lt_of_le ?_ h1; norm_num [index]
  · refine lt_of_le_of_lt h2 ?_; norm_num [index]

/-- C147.  Converting to vacuum multiplies every wavelength from 2000 angstroms on by the refractive index of standard air,
which lies between 1.000272 and 1.000325, and leaves the shorter ones alone. -/
theorem air_to_vacuum_exact (l : ℝ) :
    airElem true l = (if 2000 ≤ l then l * index (waveNumber2 l) else l) ∧
      (2000 ≤ l → l * 1.000272 < airElem true l ∧ airElem true l < l * 1.000325) ∧
      airElem false l = l * index (waveNumber2 l) := by
  refine ⟨by simp [airElem, airFact_eq], fun h => ?_, by simp [airElem, airFact_eq]⟩
  obtain ⟨h1, h2⟩ := index_bounds (wn_pos (by linarith : 0 < l)).le (wn_le h)
  have : airElem true l = l * index (waveNumber2 l) := by simp [airElem, airFact_eq, h]
  rw [this]
  constructor <;> nlinarith

/-- The drop of the index over an interval, times the upper end, is a small fraction of the interval. -/
theorem index_drop {l m : ℝ} (hl : 2000 ≤ l) (h : l < m) : m * (index (waveNumber2 l) - index (waveNumber2 m)) ≤ (m - l) / 2 := by
  set s := waveNumber2 l with hs
  set t := waveNumber2 m with ht
  have hl0 : 0 < l := by linarith
  have hm0 : 0 < m := by linarith
  have s25 : s ≤ 25 := wn_le hl
  have t25 : t ≤ 25 := wn_le (by linarith)
  have t0 : 0 < t := wn_pos hm0
  have hst : m * (s - t) ≤ 50 * (m - l) := by
    have e : m * (s - t) = (m - l) * ((l + m) / m) * (10000 / l) ^ 2 := by
      rw [hs, ht]; unfold waveNumber2; field_simp; ring
    have e2 : (10000 / l) ^ 2 = s := by rw [hs]; unfold waveNumber2; field_simp
    rw [e, e2]
    have : (l + m) / m ≤ 2 := by rw [div_le_iff₀ hm0]; linarith
    have h3 : 0 ≤ (l + m) / m := by positivity
    have h4 : 0 ≤ s := (wn_pos hl0).le
    have h5 : (l + m) / m * s ≤ 2 * 25 := mul_le_mul this s25 h4 (by norm_num)
    nlinarith
  have hst0 : 0 ≤ s - t := by
    have : 0 ≤ m * (s - t) := by
      have e : m * (s - t) = (m - l) * ((l + m) / m) * (10000 / l) ^ 2 := by
        rw [hs, ht]; unfold waveNumber2; field_simp; ring
      rw [e]
      have := (sub_pos.2 h).le
      positivity
    exact nonneg_of_mul_nonneg_right this hm0
  have d1 : 29498.1e-6 / (146 - s) - 29498.1e-6 / (146 - t) ≤ (s - t) / 1000 := by
    rw [div_sub_div _ _ (by linarith) (by linarith), div_le_iff₀ (mul_pos (by linarith) (by linarith))]
    nlinarith [mul_nonneg hst0 (mul_nonneg (by linarith : (0 : ℝ) ≤ 146 - s - 121) (by linarith : (0 : ℝ) ≤ 146 - t - 121)),
      mul_nonneg hst0 (by linarith : (0 : ℝ) ≤ 146 - s - 121), mul_nonneg hst0 (by linarith : (0 : ℝ) ≤ 146 - t - 121)]
  have d2 : 255.4e-6 / (41 - s) - 255.4e-6 / (41 - t) ≤ (s - t) / 1000 := by
    rw [div_sub_div _ _ (by linarith) (by linarith), div_le_iff₀ (mul_pos (by linarith) (by linarith))]
    nlinarith [mul_nonneg hst0 (mul_nonneg (by linarith : (0 : ℝ) ≤ 41 - s - 16) (by linarith : (0 : ℝ) ≤ 41 - t - 16)),
      mul_nonneg hst0 (by linarith : (0 : ℝ) ≤ 41 - s - 16), mul_nonneg hst0 (by linarith : (0 : ℝ) ≤ 41 - t - 16)]
  have d3 : index s - index t ≤ (s - t) / 500 := by unfold index; linarith
  calc m * (index s - index t) ≤ m * ((s - t) / 500) := mul_le_mul_of_nonneg_left d3 hm0.le
    _ = m * (s - t) / 500 := by ring
    _ ≤ (m - l) / 2 := by linarith

/-- C147.  Converting to vacuum keeps the order of wavelengths and never merges two of them. -/
theorem air_to_vacuum_increasing {l m : ℝ} (h : l < m) : airElem true l < airElem true m := by
  have hx : ∀ x : ℝ, airElem true x = if 2000 ≤ x then x * index (waveNumber2 x) else x := fun x => (air_to_vacuum_exact x).1
  rw [hx, hx]
  by_cases h1 : 2000 ≤ l
  · have h2 : 2000 ≤ m := by linarith
    rw [if_pos h1, if_pos h2]
    have hd := index_drop h1 h
    have hi := (index_bounds (wn_pos (by linarith : 0 < l)).le (wn_le h1)).1
    nlinarith [mul_lt_mul_of_pos_left hi (sub_pos.2 h)]
  · rw [if_neg h1]
    by_cases h2 : 2000 ≤ m
    · rw [if_pos h2]
      have hi := (index_bounds (wn_pos (by linarith : 0 < m)).le (wn_le h2)).1
      nlinarith
    · rw [if_neg h2]; exact h

/-- The factor of the other direction, as a polynomial in the squared wave number in vacuum. -/
noncomputable def divisor (t : ℝ) : ℝ := 1 + 2.735182e-4 + 1.314182e-6 * t + 2.76249e-8 * t ^ 2

theorem vacFact_eq (v : ℝ) : vacFact v = divisor (waveNumber2 v) := by
  simp only [vacFact, divisor, waveNumber2]
  by_cases h : v = 0
  · subst h; norm_num
  · field_simp
    ring

theorem divisor_bounds {t : ℝ} (h0 : 0 ≤ t) (h : t ≤ 25) : 1.00027 < divisor t ∧ divisor t < 1.00033 := by
  unfold divisor
  constructor <;> nlinarith [mul_nonneg h0 h0, mul_nonneg h0 (by linarith : (0 : ℝ) ≤ 25 - t)]

theorem divisor_pos {t : ℝ} (h0 : 0 ≤ t) : 1 < divisor t := by
  unfold divisor
  have := mul_nonneg h0 h0
  nlinarith

/-- C147.  Converting to air divides by the divisor when the quotient is at least 2000, and otherwise gives the wavelength
back unchanged. -/
theorem vacuum_to_air_exact {v : ℝ} (h : 0 < v) :
    vacElem true v = (if 2000 ≤ v / divisor (waveNumber2 v) then v / divisor (waveNumber2 v) else v) ∧
      vacElem false v = v / divisor (waveNumber2 v) := by
  have hp := divisor_pos (wn_pos h).le
  have hne : divisor (waveNumber2 v) ≠ 0 := by linarith
  constructor
  · simp only [vacElem, vacFact_eq, if_true]
    by_cases h1 : 2000 ≤ v / divisor (waveNumber2 v)
    · rw [if_neg (not_lt.2 h1), if_pos h1]
    · rw [if_pos (not_le.1 h1), if_neg h1, div_mul_cancel₀ _ hne]
  · simp [vacElem, vacFact_eq]

/-- C147 (defect).  Because the test is made on the result, converting to air reverses the order of some wavelengths:
2000.5 stays and 2001 comes out below it. -/
theorem vacuum_to_air_not_monotone : vacElem true 2000.5 = 2000.5 ∧ vacElem true 2001 < 2000.4 ∧ 2000 < vacElem true 2001 := by
  rw [(vacuum_to_air_exact (by norm_num : (0 : ℝ) < 2000.5)).1, (vacuum_to_air_exact (by norm_num : (0 : ℝ) < 2001)).1]
  refine ⟨?_, ?_⟩
  · rw [if_neg]; norm_num [divisor, waveNumber2]
  · rw [if_pos (by norm_num [divisor, waveNumber2])]
    constructor <;> norm_num [divisor, waveNumber2]

/-- C147.  Apart from the jump, converting to air keeps the order: two wavelengths that are both converted (or, in the
other mode, any two positive ones) come out in the same order. -/
theorem vacuum_to_air_increasing {v w : ℝ} (h0 : 0 < v) (h : v < w) : vacElem false v < vacElem false w := by
  rw [(vacuum_to_air_exact h0).2, (vacuum_to_air_exact (h0.trans h)).2]
  have hw := h0.trans h
  have hst : waveNumber2 w < waveNumber2 v := by
    unfold waveNumber2
    apply one_div_lt_one_div_of_lt (by positivity)
    have : v / 10000 < w / 10000 := by linarith
    have h1 : 0 < v / 10000 := by positivity
    nlinarith
  have ht := wn_pos hw
  have hd : divisor (waveNumber2 w) ≤ divisor (waveNumber2 v) := by
    unfold divisor
    have : waveNumber2 w ^ 2 ≤ waveNumber2 v ^ 2 := by nlinarith
    linarith
  have hp := divisor_pos ht.le
  rw [div_lt_div_iff₀ (by linarith) (by linarith)]
  nlinarith

theorem index_vs_divisor {t s : ℝ} (h0 : 0 ≤ t) (hts : t ≤ s) (hs : s ≤ 25) (hr : s ≤ 1.00066 * t) :
    |index s - divisor t| ≤ 1e-6 := by
  have ht : t ≤ 25 := by linarith
  have g := sub_nonneg.2 ht
  have e0 : 0 ≤ (25 - t) ^ 4 := by positivity
  have e1 : 0 ≤ t * (25 - t) ^ 3 := by positivity
  have e2 : 0 ≤ t ^ 2 * (25 - t) ^ 2 := by positivity
  have e3 : 0 ≤ t ^ 3 * (25 - t) := by positivity
  have e4 : 0 ≤ t ^ 4 := by positivity
  rw [abs_le]
  constructor
  · have h1 : index t ≤ index s := index_mono hts hs
    have h2 : -1e-6 ≤ index t - divisor t := by
      unfold index divisor
      have hq : 0 < (146 - t) * (41 - t) := mul_pos (by linarith) (by linarith)
      have key : 0 ≤ (64.328e-6 - 2.735182e-4 + 1e-6 - 1.314182e-6 * t - 2.76249e-8 * t ^ 2) * ((146 - t) * (41 - t)) +
          29498.1e-6 * (41 - t) + 255.4e-6 * (146 - t) := by nlinarith
      have e : (64.328e-6 - 2.735182e-4 + 1e-6 - 1.314182e-6 * t - 2.76249e-8 * t ^ 2) * ((146 - t) * (41 - t)) +
          29498.1e-6 * (41 - t) + 255.4e-6 * (146 - t) =
          ((146 - t) * (41 - t)) * (64.328e-6 - 2.735182e-4 + 1e-6 - 1.314182e-6 * t - 2.76249e-8 * t ^ 2 +
            29498.1e-6 / (146 - t) + 255.4e-6 / (41 - t)) := by
        have a1 : (146 : ℝ) - t ≠ 0 := by linarith
        have a2 : (41 : ℝ) - t ≠ 0 := by linarith
        field_simp
      rw [e] at key
      have := nonneg_of_mul_nonneg_right key hq
      linarith
    linarith
  · have h3 : index s ≤ index (1.00066 * t) ∨ 25 < 1.00066 * t := by
      rcases le_or_gt (1.00066 * t) 25 with h | h
      · exact .inl (index_mono hr h)
      · exact .inr h
    have h2 : index (1.00066 * t) - divisor t ≤ 1e-6 := by
      unfold index divisor
      have b1 : (0 : ℝ) < 146 - 1.00066 * t := by linarith
      have b2 : (0 : ℝ) < 41 - 1.00066 * t := by linarith
      have hq : 0 < (146 - 1.00066 * t) * (41 - 1.00066 * t) := mul_pos b1 b2
      have key : 0 ≤ (1e-6 - 64.328e-6 + 2.735182e-4 + 1.314182e-6 * t + 2.76249e-8 * t ^ 2) * ((146 - 1.00066 * t) * (41 - 1.00066 * t)) -
          29498.1e-6 * (41 - 1.00066 * t) - 255.4e-6 * (146 - 1.00066 * t) := by nlinarith
      have e : (1e-6 - 64.328e-6 + 2.735182e-4 + 1.314182e-6 * t + 2.76249e-8 * t ^ 2) * ((146 - 1.00066 * t) * (41 - 1.00066 * t)) -
          29498.1e-6 * (41 - 1.00066 * t) - 255.4e-6 * (146 - 1.00066 * t) =
          ((146 - 1.00066 * t) * (41 - 1.00066 * t)) * (1e-6 - 64.328e-6 + 2.735182e-4 + 1.314182e-6 * t + 2.76249e-8 * t ^ 2 -
            29498.1e-6 / (146 - 1.00066 * t) - 255.4e-6 / (41 - 1.00066 * t)) := by
        have a1 := b1.ne'
        have a2 := b2.ne'
        generalize 146 - 1.00066 * t = p at a1 ⊢
        generalize 41 - 1.00066 * t = q at a2 ⊢
        rw [mul_sub, mul_sub, mul_assoc p q (255.4e-6 / q), mul_div_cancel₀ _ a2, mul_comm p q, mul_assoc q p (29498.1e-6 / p), mul_div_cancel₀ _ a1]
        ring
      rw [e] at key
      have := nonneg_of_mul_nonneg_right key hq
      linarith
    rcases h3 with h3 | h3
    · linarith
    · have h4 : index s ≤ index (1.00066 * t) := by
        unfold index
        have h1 : 29498.1e-6 / (146 - s) ≤ 29498.1e-6 / (146 - 1.00066 * t) :=
          div_le_div_of_nonneg_left (by norm_num) (by linarith) (by linarith)
        have h2 : 255.4e-6 / (41 - s) ≤ 255.4e-6 / (41 - 1.00066 * t) :=
          div_le_div_of_nonneg_left (by norm_num) (by linarith) (by linarith)
        linarith
      linarith

/-- C147.  Converting a vacuum wavelength to air and back gives it to one part in a million, for every wavelength that is
converted at all. -/
theorem round_trip {v : ℝ} (h : 0 < v) (hc : 2000 ≤ v / divisor (waveNumber2 v)) :
    |airElem true (vacElem true v) - v| ≤ 1e-6 * v := by
  have hp := divisor_pos (wn_pos h).le
  set t := waveNumber2 v with ht
  set c := divisor t with hcdef
  have hv : 2000 ≤ v := by rw [le_div_iff₀ (by linarith)] at hc; nlinarith
  have t25 := wn_le hv
  have t0 := (wn_pos h).le
  rw [(vacuum_to_air_exact h).1, if_pos hc, (air_to_vacuum_exact _).1, if_pos hc]
  have hs : waveNumber2 (v / c) = t * c ^ 2 := by
    rw [ht]; unfold waveNumber2
    have : c ≠ 0 := by linarith
    field_simp
  rw [hs]
  have hb := divisor_bounds t0 t25
  have hs25 : t * c ^ 2 ≤ 25 := by rw [← hs]; exact wn_le hc
  have c2 : c ^ 2 ≤ 1.00066 ∨ 1.00066 < c ^ 2 := le_or_gt _ _
  have h1 : t ≤ t * c ^ 2 := by nlinarith [mul_nonneg t0 (by nlinarith : (0 : ℝ) ≤ c ^ 2 - 1)]
  have hd : c < 1.000325 := by
    rw [hcdef]; unfold divisor
    nlinarith [mul_nonneg t0 t0, mul_nonneg t0 (by linarith : (0 : ℝ) ≤ 25 - t)]
  have h2 : t * c ^ 2 ≤ 1.00066 * t := by
    have : c ^ 2 ≤ 1.00066 := by nlinarith
    nlinarith
  have key := index_vs_divisor t0 h1 hs25 h2
  have e : v / c * index (t * c ^ 2) - v = v / c * (index (t * c ^ 2) - c) := by
    have : c ≠ 0 := by linarith
    field_simp
  rw [e, abs_mul, abs_of_pos (by apply div_pos h; linarith : 0 < v / c)]
  have hvc : v / c ≤ v := by rw [div_le_iff₀ (by linarith)]; nlinarith
  calc v / c * |index (t * c ^ 2) - c| ≤ v * 1e-6 := mul_le_mul hvc key (abs_nonneg _) h.le
    _ = 1e-6 * v := by ring

/-- C147 (defect).  The two functions do not agree to the documented 0.0005 angstroms: at 10000 angstroms the round trip is
off by more than 0.007. -/
theorem round_trip_inaccurate : 0.007 < |airElem true (vacElem true 10000) - 10000| ∧ 2000 ≤ (10000 : ℝ) / divisor (waveNumber2 10000) := by
  have hc : 2000 ≤ (10000 : ℝ) / divisor (waveNumber2 10000) := by norm_num [divisor, waveNumber2]
  refine ⟨?_, hc⟩
  rw [(vacuum_to_air_exact (by norm_num)).1, if_pos hc, (air_to_vacuum_exact _).1, if_pos hc, abs_sub_comm]
  refine lt_of_lt_of_le ?_ (le_abs_self _)
  norm_num [divisor, waveNumber2, index]

/-- C147.  Arrays are converted element by element and a number comes out of `vacuum_to_air` as a number, but (defect) out of
`air_to_vacuum` as an array of one element. -/
theorem shapes (b : Bool) :
    (∀ xs, airToVacuum (.array xs) b = .array (xs.map (airElem b)) ∧ vacuumToAir (.array xs) b = .array (xs.map (vacElem b))) ∧
      (∀ x, vacuumToAir (.scalar x) b = .scalar (vacElem b x)) ∧ (∀ x, airToVacuum (.scalar x) b = .array [airElem b x]) := by
  refine ⟨fun xs => ⟨?_, ?_⟩, fun x => ?_, fun x => ?_⟩ <;> simp [airToVacuum, vacuumToAir, intoArray, giveBack]

/-- The theorems are not vacuous: 5000 angstroms is converted both ways. -/
example : 2000 ≤ (5000 : ℝ) / divisor (waveNumber2 5000) ∧ airElem true 5000 > 5001.3 ∧ vacElem true 5000 < 4998.7 := by
  have hc : 2000 ≤ (5000 : ℝ) / divisor (waveNumber2 5000) := by norm_num [divisor, waveNumber2]
  refine ⟨hc, ?_, ?_⟩
  · rw [(air_to_vacuum_exact _).1, if_pos (by norm_num)]; norm_num [index, waveNumber2]
  · rw [(vacuum_to_air_exact (by norm_num)).1, if_pos hc]; norm_num [divisor, waveNumber2]

end Verif.AirVac
