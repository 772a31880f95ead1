import Verif.Nutation

/-!
# The CIO locator and the files of the two series (astropysics/coords/coordsys.py 2307-2357, 2439-2480, 2568-2612; coords/ephems.py 1226-1345;
data/iau00_cio_locator.tab) (C202)

Exact real arithmetic; conversions of words to numbers are parameters of the loaders.
-/

namespace Verif.CioLocator

open Real Verif.Frames Verif.Nutation

/-! ## The locator -/

/-- A term: multipliers of the eight fundamental arguments, amplitudes of sine and cosine in arcsec (coordsys.py 2464-2468). -/
structure CioTerm where
  n : List ℤ
  s : ℚ
  c : ℚ
  deriving DecidableEq

/-- data/iau00_cio_locator.tab: the polynomial (arcsec). -/
def cioPoly : List ℚ := [9400 / 10 ^ 8, 380835 / 10 ^ 8, -11994 / 10 ^ 8, -7257409 / 10 ^ 8, 2770 / 10 ^ 8, 1561 / 10 ^ 8]

/-- data/iau00_cio_locator.tab: the terms of orders 0 to 4, in the order of the file. -/
def cioOrders : List (List CioTerm) := [
  [⟨[0, 0, 0, 0, 1, 0, 0, 0], -264073 / 10 ^ 8, 39 / 10 ^ 8⟩,
   ⟨[0, 0, 0, 0, 2, 0, 0, 0], -6353 / 10 ^ 8, 2 / 10 ^ 8⟩,
   ⟨[0, 0, 2, -2, 3, 0, 0, 0], -1175 / 10 ^ 8, -1 / 10 ^ 8⟩,
   ⟨[0, 0, 2, -2, 1, 0, 0, 0], -1121 / 10 ^ 8, -1 / 10 ^ 8⟩,
   ⟨[0, 0, 2, -2, 2, 0, 0, 0], 457 / 10 ^ 8, 0 / 10 ^ 8⟩,
   ⟨[0, 0, 2, 0, 3, 0, 0, 0], -202 / 10 ^ 8, 0 / 10 ^ 8⟩,
   ⟨[0, 0, 2, 0, 1, 0, 0, 0], -198 / 10 ^ 8, 0 / 10 ^ 8⟩,
   ⟨[0, 0, 0, 0, 3, 0, 0, 0], 172 / 10 ^ 8, 0 / 10 ^ 8⟩,
   ⟨[0, 1, 0, 0, 1, 0, 0, 0], 141 / 10 ^ 8, 1 / 10 ^ 8⟩,
   ⟨[0, 1, 0, 0, -1, 0, 0, 0], 126 / 10 ^ 8, 1 / 10 ^ 8⟩,
   ⟨[1, 0, 0, 0, -1, 0, 0, 0], 63 / 10 ^ 8, 0 / 10 ^ 8⟩,
   ⟨[1, 0, 0, 0, 1, 0, 0, 0], 63 / 10 ^ 8, 0 / 10 ^ 8⟩,
   ⟨[0, 1, 2, -2, 3, 0, 0, 0], -46 / 10 ^ 8, 0 / 10 ^ 8⟩,
   ⟨[0, 1, 2, -2, 1, 0, 0, 0], -45 / 10 ^ 8, 0 / 10 ^ 8⟩,
   ⟨[0, 0, 4, -4, 4, 0, 0, 0], -36 / 10 ^ 8, 0 / 10 ^ 8⟩,
   ⟨[0, 0, 1, -1, 1, -8, 12, 0], 24 / 10 ^ 8, 12 / 10 ^ 8⟩,
   ⟨[0, 0, 2, 0, 0, 0, 0, 0], -32 / 10 ^ 8, 0 / 10 ^ 8⟩,
   ⟨[0, 0, 2, 0, 2, 0, 0, 0], -28 / 10 ^ 8, 0 / 10 ^ 8⟩,
   ⟨[1, 0, 2, 0, 3, 0, 0, 0], -27 / 10 ^ 8, 0 / 10 ^ 8⟩,
   ⟨[1, 0, 2, 0, 1, 0, 0, 0], -26 / 10 ^ 8, 0 / 10 ^ 8⟩,
   ⟨[0, 0, 2, -2, 0, 0, 0, 0], 21 / 10 ^ 8, 0 / 10 ^ 8⟩,
   ⟨[0, 1, -2, 2, -3, 0, 0, 0], -19 / 10 ^ 8, 0 / 10 ^ 8⟩,
   ⟨[0, 1, -2, 2, -1, 0, 0, 0], -18 / 10 ^ 8, 0 / 10 ^ 8⟩,
   ⟨[0, 0, 0, 0, 0, 8, -13, -1], 10 / 10 ^ 8, -5 / 10 ^ 8⟩,
   ⟨[0, 0, 0, 2, 0, 0, 0, 0], -15 / 10 ^ 8, 0 / 10 ^ 8⟩,
   ⟨[2, 0, -2, 0, -1, 0, 0, 0], 14 / 10 ^ 8, 0 / 10 ^ 8⟩,
   ⟨[0, 1, 2, -2, 2, 0, 0, 0], 14 / 10 ^ 8, 0 / 10 ^ 8⟩,
   ⟨[1, 0, 0, -2, 1, 0, 0, 0], -14 / 10 ^ 8, 0 / 10 ^ 8⟩,
   ⟨[1, 0, 0, -2, -1, 0, 0, 0], -14 / 10 ^ 8, 0 / 10 ^ 8⟩,
   ⟨[0, 0, 4, -2, 4, 0, 0, 0], -13 / 10 ^ 8, 0 / 10 ^ 8⟩,
   ⟨[0, 0, 2, -2, 4, 0, 0, 0], 11 / 10 ^ 8, 0 / 10 ^ 8⟩,
   ⟨[1, 0, -2, 0, -3, 0, 0, 0], -11 / 10 ^ 8, 0 / 10 ^ 8⟩,
   ⟨[1, 0, -2, 0, -1, 0, 0, 0], -11 / 10 ^ 8, 0 / 10 ^ 8⟩],
  [⟨[0, 0, 0, 0, 2, 0, 0, 0], -7 / 10 ^ 8, 357 / 10 ^ 8⟩,
   ⟨[0, 0, 0, 0, 1, 0, 0, 0], 171 / 10 ^ 8, -3 / 10 ^ 8⟩,
   ⟨[0, 0, 2, -2, 3, 0, 0, 0], 0 / 10 ^ 8, 48 / 10 ^ 8⟩],
  [⟨[0, 0, 0, 0, 1, 0, 0, 0], 74353 / 10 ^ 8, -17 / 10 ^ 8⟩,
   ⟨[0, 0, 2, -2, 2, 0, 0, 0], 5691 / 10 ^ 8, 6 / 10 ^ 8⟩,
   ⟨[0, 0, 2, 0, 2, 0, 0, 0], 984 / 10 ^ 8, -1 / 10 ^ 8⟩,
   ⟨[0, 0, 0, 0, 2, 0, 0, 0], -885 / 10 ^ 8, 1 / 10 ^ 8⟩,
   ⟨[0, 1, 0, 0, 0, 0, 0, 0], -638 / 10 ^ 8, -5 / 10 ^ 8⟩,
   ⟨[1, 0, 0, 0, 0, 0, 0, 0], -307 / 10 ^ 8, 0 / 10 ^ 8⟩,
   ⟨[0, 1, 2, -2, 2, 0, 0, 0], 223 / 10 ^ 8, 0 / 10 ^ 8⟩,
   ⟨[0, 0, 2, 0, 1, 0, 0, 0], 167 / 10 ^ 8, 0 / 10 ^ 8⟩,
   ⟨[1, 0, 2, 0, 2, 0, 0, 0], 130 / 10 ^ 8, 0 / 10 ^ 8⟩,
   ⟨[0, 1, -2, 2, -2, 0, 0, 0], 93 / 10 ^ 8, 0 / 10 ^ 8⟩,
   ⟨[1, 0, 0, -2, 0, 0, 0, 0], 68 / 10 ^ 8, 0 / 10 ^ 8⟩,
   ⟨[0, 0, 2, -2, 1, 0, 0, 0], -55 / 10 ^ 8, 0 / 10 ^ 8⟩,
   ⟨[1, 0, -2, 0, -2, 0, 0, 0], 53 / 10 ^ 8, 0 / 10 ^ 8⟩,
   ⟨[0, 0, 0, 2, 0, 0, 0, 0], -27 / 10 ^ 8, 0 / 10 ^ 8⟩,
   ⟨[1, 0, 0, 0, 1, 0, 0, 0], -27 / 10 ^ 8, 0 / 10 ^ 8⟩,
   ⟨[1, 0, -2, -2, -2, 0, 0, 0], -26 / 10 ^ 8, 0 / 10 ^ 8⟩,
   ⟨[1, 0, 0, 0, -1, 0, 0, 0], -25 / 10 ^ 8, 0 / 10 ^ 8⟩,
   ⟨[1, 0, 2, 0, 1, 0, 0, 0], 22 / 10 ^ 8, 0 / 10 ^ 8⟩,
   ⟨[2, 0, 0, -2, 0, 0, 0, 0], -21 / 10 ^ 8, 0 / 10 ^ 8⟩,
   ⟨[2, 0, -2, 0, -1, 0, 0, 0], 20 / 10 ^ 8, 0 / 10 ^ 8⟩,
   ⟨[0, 0, 2, 2, 2, 0, 0, 0], 17 / 10 ^ 8, 0 / 10 ^ 8⟩,
   ⟨[2, 0, 2, 0, 2, 0, 0, 0], 13 / 10 ^ 8, 0 / 10 ^ 8⟩,
   ⟨[2, 0, 0, 0, 0, 0, 0, 0], -13 / 10 ^ 8, 0 / 10 ^ 8⟩,
   ⟨[1, 0, 2, -2, 2, 0, 0, 0], -12 / 10 ^ 8, 0 / 10 ^ 8⟩,
   ⟨[0, 0, 2, 0, 0, 0, 0, 0], -11 / 10 ^ 8, 0 / 10 ^ 8⟩],
  [⟨[0, 0, 0, 0, 1, 0, 0, 0], 30 / 10 ^ 8, -2351 / 10 ^ 8⟩,
   ⟨[0, 0, 2, -2, 2, 0, 0, 0], -3 / 10 ^ 8, -139 / 10 ^ 8⟩,
   ⟨[0, 0, 2, 0, 2, 0, 0, 0], -1 / 10 ^ 8, -24 / 10 ^ 8⟩,
   ⟨[0, 0, 0, 0, 2, 0, 0, 0], 0 / 10 ^ 8, 22 / 10 ^ 8⟩],
  [⟨[0, 0, 0, 0, 1, 0, 0, 0], -26 / 10 ^ 8, -1 / 10 ^ 8⟩]]

/-- `np.fmod`: the remainder has the sign of the first argument. -/
noncomputable def fmod (x y : ℝ) : ℝ := x - y * (if 0 ≤ x / y then (⌊x / y⌋ : ℝ) else (⌈x / y⌉ : ℝ))

/-- The polynomials of the five lunar and solar arguments in arcsec, ephems.py 1226-1310. -/
noncomputable def moonAnomaly (T : ℝ) : ℝ := polyval [-0.00024470, 0.051635, 31.8792, 1717915923.2178, 485868.249036] T
noncomputable def sunAnomaly (T : ℝ) : ℝ := polyval [-0.00001149, 0.000136, -0.5532, 129596581.0481, 1287104.793048] T
noncomputable def moonMinusNode (T : ℝ) : ℝ := polyval [0.00000417, -0.001037, -12.7512, 1739527262.8478, 335779.526232] T
noncomputable def elongation (T : ℝ) : ℝ := polyval [-0.00003169, 0.006593, -6.3706, 1602961601.2090, 1072260.703692] T
noncomputable def node (T : ℝ) : ℝ := polyval [-0.00005939, 0.007702, 7.4722, -6962890.5431, 450160.398036] T
/-- Longitudes of Venus and Earth and the precession, radians, ephems.py 1312-1345. -/
noncomputable def venus (T : ℝ) : ℝ := 3.176146697 + 1021.3285546211 * T
noncomputable def earth (T : ℝ) : ℝ := 1.753470314 + 628.3075849991 * T
noncomputable def precession (T : ℝ) : ℝ := (0.024381750 + 0.00000538691 * T) * T

/-- `fundargs`, coordsys.py 2593-2604. -/
noncomputable def fundargs (T : ℝ) : List ℝ :=
  [fmod (moonAnomaly T / asecperrad) (2 * π), fmod (sunAnomaly T / asecperrad) (2 * π), fmod (moonMinusNode T / asecperrad) (2 * π),
   fmod (elongation T / asecperrad) (2 * π), fmod (node T / asecperrad) (2 * π), fmod (venus T) (2 * π), fmod (earth T) (2 * π), precession T]

/-- `np.dot(ns,fundargs)` for one row. -/
noncomputable def dot (n : List ℤ) (f : List ℝ) : ℝ := (List.zipWith (fun (a : ℤ) (b : ℝ) => (a : ℝ) * b) n f).sum

/-- `np.sum(sco*np.sin(a) + cco*np.cos(a))`, coordsys.py 2611-2612. -/
noncomputable def orderSum (o : List CioTerm) (f : List ℝ) : ℝ := (o.map fun r => r.s * sin (dot r.n f) + r.c * cos (dot r.n f)).sum

/-- `newpolys[i] += …` for every order, coordsys.py 2606-2612.  `none`: more orders than polynomial coefficients (IndexError), or an order without
terms, whose array cannot be multiplied (ValueError). -/
noncomputable def addOrders (f : List ℝ) : List ℚ → List (List CioTerm) → Option (List ℝ)
  | p, [] => some (p.map (fun q : ℚ => (q : ℝ)))
  | [], _ :: _ => none
  | _ :: _, [] :: _ => none
  | q :: p, (r :: o) :: os => match addOrders f p os with
    | some l => some ((q + orderSum (r :: o) f) :: l)
    | none => none

/-- The series part of `_CIOLocator`, radians, coordsys.py 2590-2614: `np.polyval(newpolys[::-1],T)/asecperrad`. -/
noncomputable def series (polys : List ℚ) (orders : List (List CioTerm)) (T : ℝ) : Option ℝ :=
  match addOrders (fundargs T) polys orders with
  | some l => some (polyval l.reverse T / asecperrad)
  | none => none

/-! ### Specification -/

/-- An angle of `d` degrees and then arcseconds per power of the time, in radians. -/
noncomputable def iers (d a b c e T : ℝ) : ℝ := asec (3600 * d + a * T + b * T ^ 2 + c * T ^ 3 + e * T ^ 4)

/-- The arguments of the IERS 2003 conventions, without reduction, in radians: mean anomalies of Moon and Sun, argument of latitude, elongation and node of the
Moon, longitudes of Venus and Earth, precession. -/
noncomputable def arguments (T : ℝ) : List ℝ :=
  [iers 134.96340251 1717915923.2178 31.8792 0.051635 (-0.00024470) T, iers 357.52910918 129596581.0481 (-0.5532) 0.000136 (-0.00001149) T,
   iers 93.27209062 1739527262.8478 (-12.7512) (-0.001037) 0.00000417 T, iers 297.85019547 1602961601.2090 (-6.3706) 0.006593 (-0.00003169) T,
   iers 125.04455501 (-6962890.5431) 7.4722 0.007702 (-0.00005939) T, 3.176146697 + 1021.3285546211 * T, 1.753470314 + 628.3075849991 * T,
   0.024381750 * T + 0.00000538691 * T ^ 2]

theorem arguments_eq (T : ℝ) : arguments T =
    [asec (moonAnomaly T), asec (sunAnomaly T), asec (moonMinusNode T), asec (elongation T), asec (node T), venus T, earth T, precession T] := by
  unfold arguments iers
  congr 1
  · unfold moonAnomaly polyval; congr 1; simp only [List.foldl_cons, List.foldl_nil]; ring
  congr 1
  · unfold sunAnomaly polyval; congr 1; simp only [List.foldl_cons, List.foldl_nil]; ring
  congr 1
  · unfold moonMinusNode polyval; congr 1; simp only [List.foldl_cons, List.foldl_nil]; ring
  congr 1
  · unfold elongation polyval; congr 1; simp only [List.foldl_cons, List.foldl_nil]; ring
  congr 1
  · unfold node polyval; congr 1; simp only [List.foldl_cons, List.foldl_nil]; ring
  congr 3
  unfold precession; congr 1; ring

/-- The sum of one order. -/
noncomputable def specOrder (o : List CioTerm) (T : ℝ) : ℝ := (o.map fun r => r.s * sin (dot r.n (arguments T)) + r.c * cos (dot r.n (arguments T))).sum

/-- Order by order: (p_i + sum_i) T^i, in arcsec, from the power `i` on. -/
noncomputable def specFrom (T : ℝ) : ℕ → List ℚ → List (List CioTerm) → ℝ
  | _, [], _ => 0
  | i, q :: p, [] => q * T ^ i + specFrom T (i + 1) p []
  | i, q :: p, o :: os => (q + specOrder o T) * T ^ i + specFrom T (i + 1) p os

theorem fmod_turns (x : ℝ) : ∃ k : ℤ, fmod x (2 * π) = x - k * (2 * π) := by
  unfold fmod
  split_ifs
  · exact ⟨⌊x / (2 * π)⌋, by ring⟩
  · exact ⟨⌈x / (2 * π)⌉, by ring⟩

/-- Two lists that differ by whole turns at each place. -/
inductive Turns : List ℝ → List ℝ → Prop
  | nil : Turns [] []
  | cons {a b : ℝ} {l m : List ℝ} (k : ℤ) (h : a = b - k * (2 * π)) (t : Turns l m) : Turns (a :: l) (b :: m)

theorem fundargs_turns (T : ℝ) : Turns (fundargs T) (arguments T) := by
  rw [arguments_eq]
  unfold fundargs
  have h1 : ∀ x : ℝ, ∃ k : ℤ, fmod (x / asecperrad) (2 * π) = asec x - k * (2 * π) := by
    intro x; rw [asec_eq]; exact fmod_turns _
  obtain ⟨k1, e1⟩ := h1 (moonAnomaly T)
  obtain ⟨k2, e2⟩ := h1 (sunAnomaly T)
  obtain ⟨k3, e3⟩ := h1 (moonMinusNode T)
  obtain ⟨k4, e4⟩ := h1 (elongation T)
  obtain ⟨k5, e5⟩ := h1 (node T)
  obtain ⟨k6, e6⟩ := fmod_turns (venus T)
  obtain ⟨k7, e7⟩ := fmod_turns (earth T)
  exact .cons k1 e1 (.cons k2 e2 (.cons k3 e3 (.cons k4 e4 (.cons k5 e5 (.cons k6 e6 (.cons k7 e7 (.cons 0 (by simp) .nil)))))))

theorem dot_turns {f g : List ℝ} (h : Turns f g) (n : List ℤ) : ∃ k : ℤ, dot n f = dot n g - k * (2 * π) := by
  induction h generalizing n with
  | nil => exact ⟨0, by simp [dot]⟩
  | @cons a b l m k e t ih =>
    cases n with
    | nil => exact ⟨0, by simp [dot]⟩
    | cons x n =>
      obtain ⟨j, hj⟩ := ih n
      refine ⟨x * k + j, ?_⟩
      unfold dot at hj ⊢
      simp only [List.zipWith_cons_cons, List.sum_cons, hj, e]
      push_cast
      ring

theorem orderSum_eq (o : List CioTerm) (T : ℝ) : orderSum o (fundargs T) = specOrder o T := by
  unfold orderSum specOrder
  congr 1
  apply List.map_congr_left
  intro r _
  obtain ⟨k, hk⟩ := dot_turns (fundargs_turns T) r.n
  rw [hk, sin_sub_int_mul_two_pi, cos_sub_int_mul_two_pi]

theorem polyval_reverse (l : List ℝ) (T : ℝ) : polyval l.reverse T = l.foldr (fun a acc => acc * T + a) 0 := by
  unfold polyval
  rw [List.foldl_reverse]

theorem foldr_shift (T : ℝ) (p : List ℚ) (os : List (List CioTerm)) (i : ℕ) : specFrom T (i + 1) p os = T * specFrom T i p os := by
  induction p generalizing i os with
  | nil => simp [specFrom]
  | cons q p ih => cases os <;> simp only [specFrom, ih] <;> ring

theorem addOrders_value (T : ℝ) (p : List ℚ) (os : List (List CioTerm)) (l : List ℝ) (h : addOrders (fundargs T) p os = some l) :
    polyval l.reverse T = specFrom T 0 p os := by
  induction p generalizing os l with
  | nil =>
    cases os with
    | nil => simp only [addOrders, Option.some.injEq] at h; subst h; simp [polyval, specFrom]
    | cons => simp [addOrders] at h
  | cons q p ih =>
    cases os with
    | nil =>
      have hp : addOrders (fundargs T) p [] = some (p.map (fun q : ℚ => (q : ℝ))) := by cases p <;> rfl
      have := ih [] _ hp
      simp only [addOrders, Option.some.injEq] at h
      subst h
      rw [polyval_reverse] at this ⊢
      simp only [List.map_cons, List.foldr_cons, this, specFrom, foldr_shift, pow_zero]
      ring
    | cons o os =>
      cases o with
      | nil => simp [addOrders] at h
      | cons r o =>
        simp only [addOrders] at h
        cases h' : addOrders (fundargs T) p os with
        | none => rw [h'] at h; simp at h
        | some m =>
          rw [h'] at h
          simp only [Option.some.injEq] at h
          subst h
          have := ih os m h'
          rw [polyval_reverse] at this ⊢
          simp only [List.foldr_cons, this, specFrom, foldr_shift, pow_zero, orderSum_eq]
          ring

theorem addOrders_isSome (f : List ℝ) (p : List ℚ) (os : List (List CioTerm)) :
    (addOrders f p os).isSome = true ↔ os.length ≤ p.length ∧ ∀ o ∈ os, o ≠ [] := by
  induction p generalizing os with
  | nil => cases os <;> simp [addOrders]
  | cons q p ih =>
    cases os with
    | nil => simp [addOrders]
    | cons o os =>
      cases o with
      | nil => simp [addOrders]
      | cons r o =>
        have := ih os
        simp only [addOrders]
        cases h' : addOrders f p os <;> rw [h'] at this <;> simp at this ⊢ <;> tauto

/-- C202: the locator series is Σ (p_i + Σ s sin a + c cos a) T^i in arcseconds with the arguments unreduced: `fmod` (with its remainders of either sign)
changes nothing.  It is computed exactly if there are at most as many orders as coefficients and no order is empty. -/
theorem series_exact (p : List ℚ) (os : List (List CioTerm)) (T : ℝ) :
    ((series p os T).isSome = true ↔ os.length ≤ p.length ∧ ∀ o ∈ os, o ≠ []) ∧
    ∀ s, series p os T = some s → s = asec (specFrom T 0 p os) := by
  constructor
  · rw [← addOrders_isSome (fundargs T)]
    unfold series
    cases addOrders (fundargs T) p os <;> simp
  · intro s h
    unfold series at h
    cases h' : addOrders (fundargs T) p os with
    | none => rw [h'] at h; simp at h
    | some l =>
      rw [h'] at h
      simp only [Option.some.injEq] at h
      rw [← h, addOrders_value T p os l h', asec_eq]

/-- C202: the series of the package has a value at every time. -/
theorem packaged_series (T : ℝ) : series cioPoly cioOrders T = some (asec (specFrom T 0 cioPoly cioOrders)) := by
  obtain ⟨h1, h2⟩ := series_exact cioPoly cioOrders T
  have : (series cioPoly cioOrders T).isSome = true := h1.2 (by decide +kernel)
  obtain ⟨s, hs⟩ := Option.isSome_iff_exists.1 this
  rw [hs, h2 s hs]

/-! ### Size -/

def ampOrder (o : List CioTerm) : ℚ := (o.map fun r => |r.s| + |r.c|).sum

def ampFrom : List ℚ → List (List CioTerm) → ℚ
  | [], _ => 0
  | q :: p, [] => |q| + ampFrom p []
  | q :: p, o :: os => |q| + ampOrder o + ampFrom p os

theorem order_bound (o : List CioTerm) (T : ℝ) : |specOrder o T| ≤ ampOrder o := by
  unfold specOrder ampOrder
  induction o with
  | nil => simp
  | cons r o ih =>
    simp only [List.map_cons, List.sum_cons, Rat.cast_add, Rat.cast_abs]
    refine (abs_add_le _ _).trans ?_
    have h := one_bound r.s 0 r.c 0 (dot r.n (arguments T))
    simp only [zero_mul, add_zero, abs_zero] at h
    linarith

theorem spec_bound (T : ℝ) (hT : |T| ≤ 1) (i : ℕ) (p : List ℚ) (os : List (List CioTerm)) : |specFrom T i p os| ≤ ampFrom p os := by
  have hp : ∀ i, |T ^ i| ≤ 1 := fun i => by rw [abs_pow]; exact pow_le_one₀ (abs_nonneg _) hT
  induction p generalizing i os with
  | nil => simp [specFrom, ampFrom]
  | cons q p ih =>
    cases os with
    | nil =>
      simp only [specFrom, ampFrom, Rat.cast_add, Rat.cast_abs]
      refine (abs_add_le _ _).trans ?_
      have := ih (i + 1) []
      rw [abs_mul]
      have := mul_le_mul_of_nonneg_left (hp i) (abs_nonneg (q : ℝ))
      linarith
    | cons o os =>
      simp only [specFrom, ampFrom, Rat.cast_add, Rat.cast_abs]
      refine (abs_add_le _ _).trans ?_
      have h1 := ih (i + 1) os
      rw [abs_mul]
      have h2 := mul_le_mul_of_nonneg_left (hp i) (abs_nonneg ((q : ℝ) + specOrder o T))
      have h3 := abs_add_le (q : ℝ) (specOrder o T)
      have h4 := order_bound o T
      linarith

/-- C202: within a century of J2000 the series of the package is below 0.081 arcseconds. -/
theorem packaged_small (T : ℝ) (hT : |T| ≤ 1) : |specFrom T 0 cioPoly cioOrders| < 0.081 := by
  have h := spec_bound T hT 0 cioPoly cioOrders
  have h2 : ampFrom cioPoly cioOrders < 81 / 1000 := by decide +kernel
  have h3 : ((ampFrom cioPoly cioOrders : ℚ) : ℝ) < 81 / 1000 := by
    have := (Rat.cast_lt (K := ℝ)).2 h2
    push_cast at this
    exact this
  norm_num at h3 ⊢
  linarith

end Verif.CioLocator
