import Mathlib.Analysis.SpecialFunctions.Pow.Real
import Mathlib.Analysis.SpecialFunctions.Log.Base
import Mathlib.Analysis.Complex.Basic
import Mathlib.Algebra.Polynomial.FieldDivision
import Mathlib.Algebra.Polynomial.Roots
import Mathlib.Tactic.Linarith
import Mathlib.Tactic.Ring
import Mathlib.Tactic.FieldSimp
import Mathlib.Tactic.IntervalCases

/-!
# Photometric conversions (astropysics/phot.py 2761-2909, 3463-3503)

`UBVRI_to_ugriz`, `ugriz_to_UBVRI`, `transform_dict_ugriz_UBVRI`, `color_to_Teff` and `teff_to_color` in exact arithmetic.
-/

namespace Verif.PhotConv

/-! ## UBVRI and ugriz -/

inductive Err
  | value | type | notImplemented
deriving DecidableEq, Repr

/-- `UBVRI_to_ugriz`, phot.py 2763-2803 (`ugrizprimed=False`): the magnitudes (u,g,r,i,z). -/
def toUgriz (U B V R I : ℚ) : ℚ × ℚ × ℚ × ℚ × ℚ :=
  let umg := 1.28 * (U - B) + 1.13
  let rmi := 0.91 * (R - I) - 0.2
  let rmz := 1.72 * (R - I) - 0.41
  let g := V + 0.6 * (B - V) - 0.12
  let r := V - 0.42 * (B - V) + 0.11
  (umg + g, g, r, r - rmi, r - rmz)

/-- `ugriz_to_UBVRI`, phot.py 2805-2844 (`ugrizprimed=False`): the magnitudes (U,B,V,R,I). -/
def toUBVRI (u g r i _z : ℚ) : ℚ × ℚ × ℚ × ℚ × ℚ :=
  let UmB := 0.78 * (u - g) - 0.88
  let VmR := 1.09 * (r - i) + 0.22
  let RmI := 1 * (r - i) + 0.21
  let B := g + 0.39 * (g - r) + 0.21
  let V := g - 0.59 * (g - r) - 0.01
  (UmB + B, B, V, V - VmR, V - VmR - RmI)

/-- A dictionary of magnitudes. -/
abbrev Dict := String → Option ℚ
/-- `d[k] = v`. -/
def Dict.set (d : Dict) (k : String) (v : ℚ) : Dict := fun k' => if k' = k then some v else d k'
/-- `k in d`. -/
def has (d : Dict) (k : String) : Bool := (d k).isSome
/-- `d[k] if k in d else missing`. -/
def Dict.get (d : Dict) (missing : ℚ) (k : String) : ℚ := (d k).getD missing

/-- `transform_dict_ugriz_UBVRI`, phot.py 2846-2909: the dictionary afterwards and the error raised, if any.  `missing` is 9999 in the
code. -/
def transformDict (missing : ℚ) (d : Dict) (primed : Bool) : Dict × Option Err :=
  let ugriz := has d "u" || has d "g" || has d "r" || has d "i" || has d "z"
  let UBVRI := has d "U" || has d "B" || has d "V" || has d "R" || has d "I"
  if ugriz && UBVRI then (d, some .value)
  else if ugriz then
    if primed then (d, some .notImplemented)
    else
      let m := toUBVRI (d.get missing "u") (d.get missing "g") (d.get missing "r") (d.get missing "i") (d.get missing "z")
      if has d "g" && has d "r" then
        let d1 := (d.set "B" m.2.1).set "V" m.2.2.1
        let d2 := if has d "u" then d1.set "U" m.1 else d1
        let d3 := if has d "i" && has d "z" then (d2.set "I" m.2.2.2.2).set "R" m.2.2.2.1 else d2
        (d3, none)
      else (d, some .value)
  else if UBVRI then
    if primed then (d, some .notImplemented)
    else
      let m := toUgriz (d.get missing "U") (d.get missing "B") (d.get missing "V") (d.get missing "R") (d.get missing "I")
      if has d "B" && has d "V" then
        let d1 := (d.set "g" m.2.1).set "r" m.2.2.1
        let d2 := if has d "U" then d1.set "u" m.1 else d1
        let d3 := if has d "R" && has d "I" then (d2.set "i" m.2.2.2.1).set "z" m.2.2.2.2 else d2
        (d3, none)
      else (d, some .value)
  else (d, some .type)

/-- The bands of the two systems. -/
def sloan : List String := ["u", "g", "r", "i", "z"]
def johnson : List String := ["U", "B", "V", "R", "I"]

/-- Dimming the object by `s` magnitudes dims it by `s` magnitudes in every band of the other system. -/
theorem dimming (s a b c d e : ℚ) :
    toUgriz (a + s) (b + s) (c + s) (d + s) (e + s)
      = ((toUgriz a b c d e).1 + s, (toUgriz a b c d e).2.1 + s, (toUgriz a b c d e).2.2.1 + s, (toUgriz a b c d e).2.2.2.1 + s,
          (toUgriz a b c d e).2.2.2.2 + s) ∧
    toUBVRI (a + s) (b + s) (c + s) (d + s) (e + s)
      = ((toUBVRI a b c d e).1 + s, (toUBVRI a b c d e).2.1 + s, (toUBVRI a b c d e).2.2.1 + s, (toUBVRI a b c d e).2.2.2.1 + s,
          (toUBVRI a b c d e).2.2.2.2 + s) := by
  constructor
  · simp only [toUgriz, Prod.mk.injEq]
    refine ⟨by ring, by ring, by ring, by ring, by ring⟩
  · simp only [toUBVRI, Prod.mk.injEq]
    refine ⟨by ring, by ring, by ring, by ring, by ring⟩

/-- The colors are those of Jester et al. 2005 as quoted in the source. -/
theorem jester_colors (u g r i z : ℚ) :
    let m := toUBVRI u g r i z
    m.1 - m.2.1 = 0.78 * (u - g) - 0.88 ∧ m.2.1 - m.2.2.1 = 0.98 * (g - r) + 0.22 ∧
    m.2.2.1 - m.2.2.2.1 = 1.09 * (r - i) + 0.22 ∧ m.2.2.2.1 - m.2.2.2.2 = r - i + 0.21 ∧
    (∀ U B V R I : ℚ, let n := toUgriz U B V R I
      n.1 - n.2.1 = 1.28 * (U - B) + 1.13 ∧ n.2.2.1 - n.2.2.2.1 = 0.91 * (R - I) - 0.2 ∧
      n.2.2.1 - n.2.2.2.2 = 1.72 * (R - I) - 0.41 ∧ n.2.1 - n.2.2.1 = 1.02 * (B - V) - 0.23) := by
  simp only [toUBVRI, toUgriz]
  refine ⟨by ring, by ring, by ring, by ring, ?_⟩
  intro U B V R I
  refine ⟨by ring, by ring, by ring, by ring⟩

/-- Converting to UBVRI and back returns g and r within a hundredth for ordinary colors, u too, and i up to a tenth of
the color (r-i); the transformations are not inverse to each other. -/
theorem there_and_back (u g r i z : ℚ) :
    let m := toUBVRI u g r i z
    let n := toUgriz m.1 m.2.1 m.2.2.1 m.2.2.2.1 m.2.2.2.2
    |n.2.1 - g| ≤ 0.002 * |g - r| + 0.002 ∧ |n.2.2.1 - r| ≤ 0.0016 * |g - r| + 0.0076 ∧
    |(n.1 - n.2.1) - (u - g)| ≤ 0.0016 * |u - g| + 0.0036 ∧ |(n.2.2.1 - n.2.2.2.1) - (r - i)| ≤ 0.09 * |r - i| + 0.0089 := by
  simp only [toUBVRI, toUgriz]
  refine ⟨?_, ?_, ?_, ?_⟩
  · rcases abs_cases (g - r) with h | h <;> rw [abs_le] <;> constructor <;> linarith
  · rcases abs_cases (g - r) with h | h <;> rw [abs_le] <;> constructor <;> linarith
  · rcases abs_cases (u - g) with h | h <;> rw [abs_le] <;> constructor <;> linarith
  · rcases abs_cases (r - i) with h | h <;> rw [abs_le] <;> constructor <;> linarith

theorem toUBVRI_ne (u g r i z : ℚ) (h : g ≠ r) :
    let m := toUBVRI u g r i z
    (toUgriz m.1 m.2.1 m.2.2.1 m.2.2.2.1 m.2.2.2.2).2.1 = g ↔ g - r = 1 := by
  simp only [toUBVRI, toUgriz]
  constructor
  · intro h; linarith
  · intro h; linarith

theorem has_some (d : Dict) (k : String) : has d k = true ↔ ∃ v, d k = some v := Option.isSome_iff_exists

/-- Magnitudes in ugriz: with g and r (and no UBVRI magnitude) B and V are added, U if u is there, R and I if i and z
are there, with the values of `ugriz_to_UBVRI` on the magnitudes that are there (no matter what stands in for the missing ones); nothing else changes. -/
theorem dict_from_ugriz (missing : ℚ) (d : Dict) (g r : ℚ) (hg : d "g" = some g) (hr : d "r" = some r) (hj : ∀ k ∈ johnson, d k = none) :
    ∃ d', transformDict missing d false = (d', none) ∧
      (∀ k, k ∉ johnson → d' k = d k) ∧
      (∀ u i z, d' "B" = some (toUBVRI u g r i z).2.1 ∧ d' "V" = some (toUBVRI u g r i z).2.2.1) ∧
      (d "u" = none → d' "U" = none) ∧
      (∀ u, d "u" = some u → ∀ i z, d' "U" = some (toUBVRI u g r i z).1) ∧
      ((d "i" = none ∨ d "z" = none) → d' "R" = none ∧ d' "I" = none) ∧
      (∀ i z, d "i" = some i → d "z" = some z → ∀ u, d' "R" = some (toUBVRI u g r i z).2.2.2.1 ∧ d' "I" = some (toUBVRI u g r i z).2.2.2.2) := by
  simp only [johnson, List.mem_cons, List.not_mem_nil, or_false, forall_eq_or_imp, forall_eq] at hj
  obtain ⟨h1, h2, h3, h4, h5⟩ := hj
  have hh : has d "g" = true ∧ has d "r" = true ∧ has d "U" = false ∧ has d "B" = false ∧ has d "V" = false ∧ has d "R" = false ∧
      has d "I" = false := by simp [has, *]
  obtain ⟨a1, a2, a3, a4, a5, a6, a7⟩ := hh
  refine ⟨(transformDict missing d false).1, ?_⟩
  have key : transformDict missing d false = (if (has d "i" && has d "z") = true then ((if has d "u" = true then ((d.set "B" (toUBVRI (d.get missing "u") (d.get missing "g") (d.get missing "r") (d.get missing "i") (d.get missing "z")).2.1).set "V" (toUBVRI (d.get missing "u") (d.get missing "g") (d.get missing "r") (d.get missing "i") (d.get missing "z")).2.2.1).set "U" (toUBVRI (d.get missing "u") (d.get missing "g") (d.get missing "r") (d.get missing "i") (d.get missing "z")).1 else ((d.set "B" (toUBVRI (d.get missing "u") (d.get missing "g") (d.get missing "r") (d.get missing "i") (d.get missing "z")).2.1).set "V" (toUBVRI (d.get missing "u") (d.get missing "g") (d.get missing "r") (d.get missing "i") (d.get missing "z")).2.2.1)).set "I" (toUBVRI (d.get missing "u") (d.get missing "g") (d.get missing "r") (d.get missing "i") (d.get missing "z")).2.2.2.2).set "R" (toUBVRI (d.get missing "u") (d.get missing "g") (d.get missing "r") (d.get missing "i") (d.get missing "z")).2.2.2.1 else (if has d "u" = true then ((d.set "B" (toUBVRI (d.get missing "u") (d.get missing "g") (d.get missing "r") (d.get missing "i") (d.get missing "z")).2.1).set "V" (toUBVRI (d.get missing "u") (d.get missing "g") (d.get missing "r") (d.get missing "i") (d.get missing "z")).2.2.1).set "U" (toUBVRI (d.get missing "u") (d.get missing "g") (d.get missing "r") (d.get missing "i") (d.get missing "z")).1 else ((d.set "B" (toUBVRI (d.get missing "u") (d.get missing "g") (d.get missing "r") (d.get missing "i") (d.get missing "z")).2.1).set "V" (toUBVRI (d.get missing "u") (d.get missing "g") (d.get missing "r") (d.get missing "i") (d.get missing "z")).2.2.1)), none) := by
    simp only [transformDict, a1, a2, a3, a4, a5, a6, a7, Bool.or_true, Bool.true_or, Bool.or_false, Bool.and_true, Bool.and_false,
      Bool.false_and, Bool.false_eq_true, if_false, if_true]
  rw [key]; clear key
  refine ⟨rfl, ?_⟩
  dsimp only
  constructor
  · intro k hk
    simp only [johnson, List.mem_cons, List.not_mem_nil, or_false, not_or] at hk
    obtain ⟨k1, k2, k3, k4, k5⟩ := hk
    split_ifs <;> simp [Dict.set, k1, k2, k3, k4, k5]
  · cases hu : d "u" <;> cases hi : d "i" <;> cases hz : d "z" <;>
      simp [has, hu, hi, hz, Dict.set, Dict.get, toUBVRI, hg, hr, h1, h2, h3, h4, h5]

/-- And the other way round. -/
theorem dict_from_UBVRI (missing : ℚ) (d : Dict) (B V : ℚ) (hB : d "B" = some B) (hV : d "V" = some V) (hs : ∀ k ∈ sloan, d k = none) :
    ∃ d', transformDict missing d false = (d', none) ∧
      (∀ k, k ∉ sloan → d' k = d k) ∧
      (∀ U R I, d' "g" = some (toUgriz U B V R I).2.1 ∧ d' "r" = some (toUgriz U B V R I).2.2.1) ∧
      (d "U" = none → d' "u" = none) ∧
      (∀ U, d "U" = some U → ∀ R I, d' "u" = some (toUgriz U B V R I).1) ∧
      ((d "R" = none ∨ d "I" = none) → d' "i" = none ∧ d' "z" = none) ∧
      (∀ R I, d "R" = some R → d "I" = some I → ∀ U, d' "i" = some (toUgriz U B V R I).2.2.2.1 ∧ d' "z" = some (toUgriz U B V R I).2.2.2.2) := by
  simp only [sloan, List.mem_cons, List.not_mem_nil, or_false, forall_eq_or_imp, forall_eq] at hs
  obtain ⟨h1, h2, h3, h4, h5⟩ := hs
  have hh : has d "B" = true ∧ has d "V" = true ∧ has d "u" = false ∧ has d "g" = false ∧ has d "r" = false ∧ has d "i" = false ∧
      has d "z" = false := by simp [has, *]
  obtain ⟨a1, a2, a3, a4, a5, a6, a7⟩ := hh
  refine ⟨(transformDict missing d false).1, ?_⟩
  have key : transformDict missing d false = (if (has d "R" && has d "I") = true then ((if has d "U" = true then ((d.set "g" (toUgriz (d.get missing "U") (d.get missing "B") (d.get missing "V") (d.get missing "R") (d.get missing "I")).2.1).set "r" (toUgriz (d.get missing "U") (d.get missing "B") (d.get missing "V") (d.get missing "R") (d.get missing "I")).2.2.1).set "u" (toUgriz (d.get missing "U") (d.get missing "B") (d.get missing "V") (d.get missing "R") (d.get missing "I")).1 else ((d.set "g" (toUgriz (d.get missing "U") (d.get missing "B") (d.get missing "V") (d.get missing "R") (d.get missing "I")).2.1).set "r" (toUgriz (d.get missing "U") (d.get missing "B") (d.get missing "V") (d.get missing "R") (d.get missing "I")).2.2.1)).set "i" (toUgriz (d.get missing "U") (d.get missing "B") (d.get missing "V") (d.get missing "R") (d.get missing "I")).2.2.2.1).set "z" (toUgriz (d.get missing "U") (d.get missing "B") (d.get missing "V") (d.get missing "R") (d.get missing "I")).2.2.2.2 else (if has d "U" = true then ((d.set "g" (toUgriz (d.get missing "U") (d.get missing "B") (d.get missing "V") (d.get missing "R") (d.get missing "I")).2.1).set "r" (toUgriz (d.get missing "U") (d.get missing "B") (d.get missing "V") (d.get missing "R") (d.get missing "I")).2.2.1).set "u" (toUgriz (d.get missing "U") (d.get missing "B") (d.get missing "V") (d.get missing "R") (d.get missing "I")).1 else ((d.set "g" (toUgriz (d.get missing "U") (d.get missing "B") (d.get missing "V") (d.get missing "R") (d.get missing "I")).2.1).set "r" (toUgriz (d.get missing "U") (d.get missing "B") (d.get missing "V") (d.get missing "R") (d.get missing "I")).2.2.1)), none) := by
    simp only [transformDict, a1, a2, a3, a4, a5, a6, a7, Bool.or_true, Bool.true_or, Bool.or_false, Bool.and_true, Bool.and_false,
      Bool.false_and, Bool.false_eq_true, if_false, if_true]
  rw [key]; clear key
  refine ⟨rfl, ?_⟩
  dsimp only
  constructor
  · intro k hk
    simp only [sloan, List.mem_cons, List.not_mem_nil, or_false, not_or] at hk
    obtain ⟨k1, k2, k3, k4, k5⟩ := hk
    split_ifs <;> simp [Dict.set, k1, k2, k3, k4, k5]
  · cases hu : d "U" <;> cases hi : d "R" <;> cases hz : d "I" <;>
      simp [has, hu, hi, hz, Dict.set, Dict.get, toUgriz, hB, hV, h1, h2, h3, h4, h5]

/-- A call that raises leaves the dictionary as it was; it raises ValueError if both systems are present or the two bands that
everything needs are missing. -/
theorem dict_raises (missing : ℚ) (d : Dict) (primed : Bool) :
    ((transformDict missing d primed).2 ≠ none → (transformDict missing d primed).1 = d) ∧
    (∀ k ∈ sloan, ∀ k' ∈ johnson, has d k = true → has d k' = true → (transformDict missing d primed).2 = some .value) ∧
    (∀ k ∈ sloan, has d k = true → (∀ k' ∈ johnson, has d k' = false) → (d "g" = none ∨ d "r" = none) →
      (transformDict missing d false).2 = some .value) ∧
    (∀ k ∈ johnson, has d k = true → (∀ k' ∈ sloan, has d k' = false) → (d "B" = none ∨ d "V" = none) →
      (transformDict missing d false).2 = some .value) := by
  refine ⟨?_, ?_, ?_, ?_⟩
  · unfold transformDict
    dsimp only
    split_ifs <;> simp
  · intro k hk k' hk' h h'
    simp only [sloan, johnson, List.mem_cons, List.not_mem_nil, or_false] at hk hk'
    have a : (has d "u" || has d "g" || has d "r" || has d "i" || has d "z") = true := by
      rcases hk with rfl | rfl | rfl | rfl | rfl <;> simp [h]
    have b : (has d "U" || has d "B" || has d "V" || has d "R" || has d "I") = true := by
      rcases hk' with rfl | rfl | rfl | rfl | rfl <;> simp [h']
    simp only [transformDict, a, b, Bool.and_self, if_true]
  · intro k hk h hj hm
    simp only [sloan, johnson, List.mem_cons, List.not_mem_nil, or_false, forall_eq_or_imp, forall_eq] at hk hj
    have a : (has d "u" || has d "g" || has d "r" || has d "i" || has d "z") = true := by
      rcases hk with rfl | rfl | rfl | rfl | rfl <;> simp [h]
    have b : (has d "U" || has d "B" || has d "V" || has d "R" || has d "I") = false := by simp [hj]
    have c : (has d "g" && has d "r") = false := by rcases hm with h | h <;> simp [has, h]
    simp only [transformDict, a, b, c, Bool.and_false, Bool.false_eq_true, if_false, if_true]
  · intro k hk h hj hm
    simp only [sloan, johnson, List.mem_cons, List.not_mem_nil, or_false, forall_eq_or_imp, forall_eq] at hk hj
    have a : (has d "U" || has d "B" || has d "V" || has d "R" || has d "I") = true := by
      rcases hk with rfl | rfl | rfl | rfl | rfl <;> simp [h]
    have b : (has d "u" || has d "g" || has d "r" || has d "i" || has d "z") = false := by simp [hj]
    have c : (has d "B" && has d "V") = false := by rcases hm with h | h <;> simp [has, h]
    simp only [transformDict, a, b, c, Bool.false_and, Bool.false_eq_true, if_false, if_true]

/-- Without any magnitude a TypeError is raised; the documentation says ValueError. -/
theorem dict_neither (missing : ℚ) (d : Dict) (primed : Bool) (hs : ∀ k ∈ sloan, d k = none) (hj : ∀ k ∈ johnson, d k = none) :
    transformDict missing d primed = (d, some .type) := by
  simp only [sloan, johnson, List.mem_cons, List.not_mem_nil, or_false, forall_eq_or_imp, forall_eq] at hs hj
  simp [transformDict, has, hs, hj]

/-- R and I need no z (it is unused in the transformation), but without it they are not computed. -/
theorem z_unused (u g r i z z' : ℚ) : toUBVRI u g r i z = toUBVRI u g r i z' := rfl

example : ∃ d', transformDict 9999 (fun k => if k = "g" then some 18 else if k = "r" then some 17 else none) false = (d', none) ∧
    d' "B" = some 18.6 ∧ d' "V" = some 17.4 ∧ d' "U" = none ∧ d' "g" = some 18 := by
  obtain ⟨d', h, h1, h2, h3, _⟩ := dict_from_ugriz 9999 (fun k => if k = "g" then some 18 else if k = "r" then some 17 else none) 18 17
    (by simp) (by simp) (by simp [johnson])
  refine ⟨d', h, ?_, ?_, h3 (by simp), ?_⟩
  · rw [(h2 0 0 0).1]; norm_num [toUBVRI]
  · rw [(h2 0 0 0).2]; norm_num [toUBVRI]
  · rw [h1 "g" (by simp [johnson])]; simp

/-! ## Piecewise linear interpolation -/

/-- The straight line through two points. -/
def lin (p q : ℚ × ℚ) (x : ℚ) : ℚ := p.2 + (x - p.1) * (q.2 - p.2) / (q.1 - p.1)

/-- `numpy.interp(x,xs,ys)` for increasing `xs`, as a list of points: linear between neighbours, constant outside. -/
def interp : List (ℚ × ℚ) → ℚ → ℚ
  | [], _ => 0
  | [p], _ => p.2
  | p :: q :: rest, x => if x ≤ p.1 then p.2 else if x ≤ q.1 then lin p q x else interp (q :: rest) x

/-- A table with increasing arguments. -/
def Increasing (l : List (ℚ × ℚ)) : Prop := l.Pairwise (fun p q => p.1 < q.1)

theorem lin_right (p q : ℚ × ℚ) (h : p.1 < q.1) : lin p q q.1 = q.2 := by
  have : q.1 - p.1 ≠ 0 := by linarith
  unfold lin; rw [mul_comm, mul_div_assoc, div_self this]; ring

theorem lin_left (p q : ℚ × ℚ) : lin p q p.1 = p.2 := by simp [lin]

theorem interp_left (p : ℚ × ℚ) (l : List (ℚ × ℚ)) (x : ℚ) (h : x ≤ p.1) : interp (p :: l) x = p.2 := by
  cases l with
  | nil => rfl
  | cons q l => simp [interp, h]

/-- Between two neighbours of the table the value is on the line between them. -/
theorem interp_segment (l : List (ℚ × ℚ)) (hl : Increasing l) (j : Nat) (p q : ℚ × ℚ) (hp : l[j]? = some p) (hq : l[j + 1]? = some q)
    (x : ℚ) (h1 : p.1 ≤ x) (h2 : x ≤ q.1) : interp l x = lin p q x := by
  induction l generalizing j with
  | nil => simp at hp
  | cons a l ih =>
    cases l with
    | nil => simp at hq
    | cons b l =>
      unfold Increasing at hl
      rw [List.pairwise_cons] at hl
      cases j with
      | zero =>
        simp at hp hq
        subst hp; subst hq
        simp only [interp]
        split_ifs with h
        · have : x = a.1 := le_antisymm h h1
          rw [this, lin_left]
        · rfl
      | succ j =>
        have hp' : (b :: l)[j]? = some p := by simpa using hp
        have hq' : (b :: l)[j + 1]? = some q := by simpa using hq
        have hap : a.1 < p.1 := hl.1 p (List.mem_of_getElem? hp')
        have hbp : b.1 ≤ p.1 := by
          cases j with
          | zero => simp at hp'; subst hp'; exact le_rfl
          | succ j =>
            exact le_of_lt ((List.pairwise_cons.1 hl.2).1 p (List.mem_of_getElem? (by simpa using hp')))
        have hih := ih hl.2 j hp' hq'
        simp only [interp]
        rw [if_neg (by linarith)]
        split_ifs with h
        · have e1 : x = b.1 := le_antisymm h (by linarith)
          have e2 : p.1 = b.1 := by linarith
          rw [← hih, e1, interp_left b l b.1 le_rfl, lin_right a b (hl.1 b (by simp))]
        · exact hih

theorem exists_segment (l : List (ℚ × ℚ)) (a b : ℚ × ℚ) (ha : l.head? = some a) (hb : l.getLast? = some b) (hlen : 2 ≤ l.length)
    (x : ℚ) (h1 : a.1 ≤ x) (h2 : x ≤ b.1) :
    ∃ j p q, l[j]? = some p ∧ l[j + 1]? = some q ∧ p.1 ≤ x ∧ x ≤ q.1 := by
  induction l generalizing a with
  | nil => simp at ha
  | cons c l ih =>
    simp at ha; subst ha
    cases l with
    | nil => simp at hlen
    | cons d l =>
      rcases le_or_gt x d.1 with h | h
      · exact ⟨0, c, d, by simp, by simp, h1, h⟩
      · cases l with
        | nil => simp at hb; subst hb; linarith
        | cons e l =>
          obtain ⟨j, p, q, hp, hq, h3, h4⟩ := ih d (by simp) (by simpa using hb) (by simp) h.le
          exact ⟨j + 1, p, q, by simpa using hp, by simpa using hq, h3, h4⟩

/-- The table read the other way round. -/
def inverseTable (l : List (ℚ × ℚ)) : List (ℚ × ℚ) := (l.map Prod.swap).reverse

theorem inverseTable_increasing (l : List (ℚ × ℚ)) (hd : l.Pairwise (fun p q => q.2 < p.2)) : Increasing (inverseTable l) := by
  unfold Increasing inverseTable
  rw [List.pairwise_reverse, List.pairwise_map]
  exact hd

/-- For a table with increasing arguments and decreasing values, interpolation in the inverse table inverts interpolation. -/
theorem interp_inverse (l : List (ℚ × ℚ)) (hl : Increasing l) (hd : l.Pairwise (fun p q => q.2 < p.2)) (a b : ℚ × ℚ)
    (ha : l.head? = some a) (hb : l.getLast? = some b) (hlen : 2 ≤ l.length) (x : ℚ) (h1 : a.1 ≤ x) (h2 : x ≤ b.1) :
    interp (inverseTable l) (interp l x) = x := by
  obtain ⟨j, p, q, hp, hq, h3, h4⟩ := exists_segment l a b ha hb hlen x h1 h2
  have hj : j + 1 < l.length := by
    by_contra hn
    rw [List.getElem?_eq_none (by omega)] at hq
    simp at hq
  have hx : p.1 < q.1 := by
    have := List.pairwise_iff_getElem.1 hl j (j + 1) (by omega) hj (by omega)
    rw [List.getElem?_eq_getElem (by omega)] at hp hq
    simp at hp hq
    rwa [hp, hq] at this
  have hy : q.2 < p.2 := by
    have := List.pairwise_iff_getElem.1 hd j (j + 1) (by omega) hj (by omega)
    rw [List.getElem?_eq_getElem (by omega)] at hp hq
    simp at hp hq
    rwa [hp, hq] at this
  rw [interp_segment l hl j p q hp hq x h3 h4]
  have hd1 : 0 < q.1 - p.1 := by linarith
  have hd2 : 0 < p.2 - q.2 := by linarith
  have hv : lin p q x = p.2 - (x - p.1) * (p.2 - q.2) / (q.1 - p.1) := by
    unfold lin; rw [show q.2 - p.2 = -(p.2 - q.2) by ring]; ring
  have b1 : lin p q x ≤ p.2 := by
    rw [hv]
    have : 0 ≤ (x - p.1) * (p.2 - q.2) / (q.1 - p.1) := div_nonneg (mul_nonneg (by linarith) hd2.le) hd1.le
    linarith
  have b2 : q.2 ≤ lin p q x := by
    rw [hv]
    have : (x - p.1) * (p.2 - q.2) / (q.1 - p.1) ≤ p.2 - q.2 := by
      rw [div_le_iff₀ hd1]
      nlinarith
    linarith
  have e1 : (inverseTable l)[l.length - 2 - j]? = some q.swap := by
    unfold inverseTable
    rw [List.getElem?_reverse (by simp; omega)]
    simp only [List.length_map, List.getElem?_map]
    rw [show l.length - 1 - (l.length - 2 - j) = j + 1 by omega, hq]
    rfl
  have e2 : (inverseTable l)[l.length - 2 - j + 1]? = some p.swap := by
    unfold inverseTable
    rw [List.getElem?_reverse (by simp; omega)]
    simp only [List.length_map, List.getElem?_map]
    rw [show l.length - 1 - (l.length - 2 - j + 1) = j by omega, hp]
    rfl
  rw [interp_segment (inverseTable l) (inverseTable_increasing l hd) _ q.swap p.swap e1 e2 _ b2 b1]
  unfold lin
  simp only [Prod.fst_swap, Prod.snd_swap]
  rw [show q.2 - p.2 = -(p.2 - q.2) by ring]
  field_simp
  ring

/-- `interp` decreases with a decreasing table. -/
theorem interp_le_head (l : List (ℚ × ℚ)) (p : ℚ × ℚ) (hl : Increasing (p :: l)) (hd : (p :: l).Pairwise (fun p q => q.2 < p.2)) (x : ℚ) :
    interp (p :: l) x ≤ p.2 := by
  induction l generalizing p with
  | nil => exact le_rfl
  | cons q l ih =>
    unfold Increasing at hl
    rw [List.pairwise_cons] at hl hd
    simp only [interp]
    have hx := hl.1 q (by simp)
    have hy := hd.1 q (by simp)
    split_ifs with h1 h2
    · exact le_rfl
    · unfold lin
      have : (x - p.1) * (q.2 - p.2) / (q.1 - p.1) ≤ 0 :=
        div_nonpos_of_nonpos_of_nonneg (mul_nonpos_of_nonneg_of_nonpos (by linarith) (by linarith)) (by linarith)
      linarith
    · exact (ih q hl.2 hd.2).trans hy.le

/-- `interp` is continuous at the knots and passes through them. -/
theorem interp_knot (l : List (ℚ × ℚ)) (hl : Increasing l) (p : ℚ × ℚ) (hp : p ∈ l) : interp l p.1 = p.2 := by
  induction l with
  | nil => simp at hp
  | cons a l ih =>
    have hl' := hl
    unfold Increasing at hl
    rw [List.pairwise_cons] at hl
    rw [List.mem_cons] at hp
    rcases hp with rfl | hp
    · exact interp_left _ _ _ le_rfl
    · cases l with
      | nil => simp at hp
      | cons b l =>
        have hap := hl.1 p hp
        simp only [interp]
        rw [if_neg (by linarith)]
        split_ifs with h
        · have : p = b := by
            rw [List.mem_cons] at hp
            rcases hp with h' | h'
            · exact h'
            · have := (List.pairwise_cons.1 hl.2).1 p h'
              linarith
          subst this
          exact lin_right a p hap
        · exact ih hl.2 hp

theorem interp_right (l : List (ℚ × ℚ)) (hl : Increasing l) (b : ℚ × ℚ) (hb : l.getLast? = some b) (x : ℚ) (h : b.1 ≤ x) :
    interp l x = b.2 := by
  induction l with
  | nil => simp at hb
  | cons a l ih =>
    cases l with
    | nil => simp at hb; subst hb; rfl
    | cons c l =>
      unfold Increasing at hl
      rw [List.pairwise_cons] at hl
      have hb' : (c :: l).getLast? = some b := by simpa using hb
      have hm : b ∈ c :: l := List.mem_of_getLast? hb'
      have hab := hl.1 b hm
      simp only [interp]
      rw [if_neg (by linarith)]
      split_ifs with h2
      · rw [List.mem_cons] at hm
        rcases hm with rfl | hm
        · have : x = b.1 := le_antisymm h2 h
          rw [this, lin_right a b hab]
        · have := (List.pairwise_cons.1 hl.2).1 b hm
          linarith
      · exact ih hl.2 hb'

/-! ## Color and effective temperature -/

/-- The table of color_to_Teff and teff_to_color for B-V (phot.py 3475-3476 and 3497-3498). -/
def table : List (ℚ × ℚ) :=
  [(0.3, 7078), (0.4, 6621), (0.5, 6214), (0.6, 5852), (0.7, 5532), (0.8, 5248), (0.9, 4996), (1, 4770), (1.1, 4567), (1.2, 4382),
   (1.3, 4209), (1.4, 4044), (1.5, 3882)]

/-- `color_to_Teff(c,'B-V')`, phot.py 3474-3477. -/
def colorToTeffBV (c : ℚ) : ℚ := interp table c
/-- `teff_to_color(teff,'B-V')`, phot.py 3496-3499: the table with both columns reversed. -/
def teffToColorBV (t : ℚ) : ℚ := interp ((table.map (fun p => (p.2, p.1))).reverse) t

theorem table_increasing : Increasing table := by unfold Increasing; decide +kernel
theorem table_decreasing : table.Pairwise (fun p q => q.2 < p.2) := by decide +kernel

/-- B-V and effective temperature are inverse to each other within the range of the table; outside both are constant. -/
theorem BV_roundtrip :
    (∀ c, 0.3 ≤ c → c ≤ 1.5 → teffToColorBV (colorToTeffBV c) = c) ∧
    (∀ t, 3882 ≤ t → t ≤ 7078 → colorToTeffBV (teffToColorBV t) = t) ∧
    (∀ c, c ≤ 0.3 → colorToTeffBV c = 7078) ∧ (∀ c, 1.5 ≤ c → colorToTeffBV c = 3882) ∧
    (∀ t, t ≤ 3882 → teffToColorBV t = 1.5) ∧ (∀ t, 7078 ≤ t → teffToColorBV t = 0.3) := by
  have einv : (table.map (fun p => (p.2, p.1))).reverse = inverseTable table := rfl
  have hi := inverseTable_increasing table table_decreasing
  have einv2 : inverseTable (inverseTable table) = table := by
    unfold inverseTable
    rw [List.map_reverse, List.reverse_reverse, List.map_map]
    simp
  have hd2 : (inverseTable table).Pairwise (fun p q => q.2 < p.2) := by
    unfold inverseTable
    rw [List.pairwise_reverse, List.pairwise_map]
    exact table_increasing
  refine ⟨?_, ?_, ?_, ?_, ?_, ?_⟩
  · intro c h1 h2
    exact interp_inverse table table_increasing table_decreasing (0.3, 7078) (1.5, 3882) rfl rfl (by decide) c h1 h2
  · intro t h1 h2
    have := interp_inverse (inverseTable table) hi hd2 (3882, 1.5) (7078, 0.3) rfl rfl (by decide) t h1 h2
    rw [einv2] at this
    exact this
  · intro c h
    exact interp_left _ _ _ h
  · intro c h
    exact interp_right table table_increasing (1.5, 3882) rfl c h
  · intro t h
    exact interp_left (3882, 1.5) _ _ h
  · intro t h
    exact interp_right (inverseTable table) hi (7078, 0.3) rfl t h

/-- Redder is cooler, strictly so within the table; at the tabulated colors the tabulated temperature is returned. -/
theorem BV_monotone :
    (∀ c c', 0.3 ≤ c → c < c' → c' ≤ 1.5 → colorToTeffBV c' < colorToTeffBV c) ∧ (∀ p ∈ table, colorToTeffBV p.1 = p.2) := by
  constructor
  · -- generally for decreasing tables
    have gen : ∀ (l : List (ℚ × ℚ)) (a b : ℚ × ℚ), Increasing l → l.Pairwise (fun p q => q.2 < p.2) → l.head? = some a →
        l.getLast? = some b → ∀ c c', a.1 ≤ c → c < c' → c' ≤ b.1 → interp l c' < interp l c := by
      intro l
      induction l with
      | nil => intro a b _ _ h; simp at h
      | cons p l ih =>
        intro a b hl hd ha hb c c' h1 h2 h3
        simp at ha; subst ha
        cases l with
        | nil => simp at hb; subst hb; linarith
        | cons q l =>
          unfold Increasing at hl
          rw [List.pairwise_cons] at hl hd
          have hx := hl.1 q (by simp)
          have hy := hd.1 q (by simp)
          have hb' : (q :: l).getLast? = some b := by simpa using hb
          have hneg : (q.2 - p.2) / (q.1 - p.1) < 0 := div_neg_of_neg_of_pos (by linarith) (by linarith)
          have hlin : ∀ y, lin p q y = p.2 + (y - p.1) * ((q.2 - p.2) / (q.1 - p.1)) := fun y => by unfold lin; ring
          have hle : ∀ y, p.1 ≤ y → y ≤ q.1 → interp (p :: q :: l) y = lin p q y := by
            intro y h4 h5
            exact interp_segment (p :: q :: l) (by unfold Increasing; rw [List.pairwise_cons]; exact hl) 0 p q rfl rfl y h4 h5
          rcases le_or_gt c' q.1 with h | h
          · rw [hle c' (by linarith) h, hle c h1 (by linarith), hlin, hlin]
            nlinarith
          · have e' : interp (p :: q :: l) c' = interp (q :: l) c' := by
              simp only [interp]; rw [if_neg (by linarith), if_neg (by linarith)]
            rcases le_or_gt c q.1 with hc | hc
            · rw [e', hle c h1 hc]
              have k1 : q.2 ≤ lin p q c := by
                rw [← lin_right p q hx, hlin, hlin]
                nlinarith
              have k2 : interp (q :: l) c' < interp (q :: l) q.1 := ih q b hl.2 hd.2 rfl hb' q.1 c' le_rfl h h3
              rw [interp_left q l q.1 le_rfl] at k2
              linarith
            · have e : interp (p :: q :: l) c = interp (q :: l) c := by
                simp only [interp]; rw [if_neg (by linarith), if_neg (by linarith)]
              rw [e, e']
              exact ih q b hl.2 hd.2 rfl hb' c c' hc.le h2 h3
    intro c c' h1 h2 h3
    exact gen table (0.3, 7078) (1.5, 3882) table_increasing table_decreasing rfl rfl c c' h1 h2 h3
  · intro p hp
    exact interp_knot table table_increasing p hp

example : teffToColorBV (colorToTeffBV 0.65) = 0.65 := BV_roundtrip.1 _ (by norm_num) (by norm_num)

open Polynomial in
/-- The polynomial of `teff_to_color(teff,'g-r')`, phot.py 3487: `np.poly1d([.0283,.0488,-.316,3.882-np.log10(teff)])`. -/
noncomputable def grPoly (teff : ℝ) : ℂ[X] :=
  C ((0.0283 : ℝ) : ℂ) * X ^ 3 + C ((0.0488 : ℝ) : ℂ) * X ^ 2 + C ((-0.316 : ℝ) : ℂ) * X + C ((3.882 - Real.logb 10 teff : ℝ) : ℂ)

/-- `color_to_Teff(c,'g-r')`, phot.py 3469-3473; `none`: ValueError. -/
noncomputable def colorToTeffGr (c : ℝ) : Option ℝ :=
  if -0.2 ≤ c ∧ c ≤ 0.9 then some (10 ^ (0.0283 * c ^ 3 + 0.0488 * c ^ 2 + (-0.316) * c + 3.882)) else none

/-- The loop of `teff_to_color`, phot.py 3489-3494: ValueError is `none`, the returned None is `some none`. -/
noncomputable def pickRoot : List ℂ → Option ℝ → Option (Option ℝ)
  | [], good => some good
  | r :: rs, good =>
    if r.im = 0 ∧ -0.2 ≤ r.re ∧ r.re ≤ 0.9 then
      match good with
      | some _ => none
      | none => pickRoot rs (some r.re)
    else pickRoot rs good

/-- The logarithm of the temperature as a function of g-r. -/
noncomputable def grLog (c : ℝ) : ℝ := 0.0283 * c ^ 3 + 0.0488 * c ^ 2 + (-0.316) * c + 3.882

theorem grLog_anti (a b : ℝ) (h1 : -0.2 ≤ a) (h2 : a < b) (h3 : b ≤ 0.9) : grLog b < grLog a := by
  unfold grLog
  have key : 0.0283 * (a ^ 2 + a * b + b ^ 2) + 0.0488 * (a + b) - 0.316 < 0 := by
    have ha : a ^ 2 ≤ 0.81 := by nlinarith
    have hb : b ^ 2 ≤ 0.81 := by nlinarith
    have hab : a * b ≤ 0.81 := by nlinarith
    linarith
  have : 0 < (b - a) * (-(0.0283 * (a ^ 2 + a * b + b ^ 2) + 0.0488 * (a + b) - 0.316)) := mul_pos (by linarith) (by linarith)
  nlinarith

/-- Redder is cooler. -/
theorem gr_monotone (a b ta tb : ℝ) (ha : colorToTeffGr a = some ta) (hb : colorToTeffGr b = some tb) (h : a < b) : tb < ta := by
  unfold colorToTeffGr at ha hb
  split_ifs at ha hb with h1 h2
  simp only [Option.some.injEq] at ha hb
  rw [← ha, ← hb]
  apply Real.rpow_lt_rpow_of_exponent_lt (by norm_num)
  exact grLog_anti a b h1.1 h h2.2

theorem grPoly_eval (teff c : ℝ) : (grPoly teff).eval (c : ℂ) = ((grLog c - Real.logb 10 teff : ℝ) : ℂ) := by
  unfold grPoly grLog
  simp only [Polynomial.eval_add, Polynomial.eval_mul, Polynomial.eval_C, Polynomial.eval_pow, Polynomial.eval_X]
  push_cast
  ring

theorem grPoly_ne (teff : ℝ) : grPoly teff ≠ 0 := by
  intro h
  have : (grPoly teff).coeff 3 = 0 := by rw [h]; simp
  unfold grPoly at this
  simp [Polynomial.coeff_X, Polynomial.coeff_C] at this
  norm_num at this

theorem grPoly_derivative (teff c : ℝ) :
    (Polynomial.derivative (grPoly teff)).eval (c : ℂ) = ((0.0849 * c ^ 2 + 0.0976 * c - 0.316 : ℝ) : ℂ) := by
  unfold grPoly
  simp only [Polynomial.derivative_add, Polynomial.derivative_mul, Polynomial.derivative_C, Polynomial.derivative_X_pow, Polynomial.derivative_X,
    Polynomial.eval_add, Polynomial.eval_mul, Polynomial.eval_C, Polynomial.eval_pow, Polynomial.eval_X, Polynomial.eval_zero, Polynomial.eval_one]
  push_cast
  norm_num
  ring

/-- The roots in the allowed range, among all complex roots with their multiplicities, are none, or one. -/
theorem pickRoot_spec (l : List ℂ) (c : ℝ) (hc : -0.2 ≤ c ∧ c ≤ 0.9) (hcount : l.count (c : ℂ) ≤ 1)
    (hu : ∀ r ∈ l, (r.im = 0 ∧ -0.2 ≤ r.re ∧ r.re ≤ 0.9) → r = (c : ℂ)) :
    pickRoot l none = some (if (c : ℂ) ∈ l then some c else none) ∧ ((c : ℂ) ∉ l → pickRoot l (some c) = some (some c)) := by
  induction l with
  | nil => simp [pickRoot]
  | cons r l ih =>
    have hu' : ∀ r ∈ l, (r.im = 0 ∧ -0.2 ≤ r.re ∧ r.re ≤ 0.9) → r = (c : ℂ) := fun x hx => hu x (by simp [hx])
    obtain ⟨i1, i2⟩ := ih (le_trans (List.count_le_count_cons) hcount) hu'
    by_cases hr : r.im = 0 ∧ -0.2 ≤ r.re ∧ r.re ≤ 0.9
    · have e := hu r (by simp) hr
      subst e
      have hn : (c : ℂ) ∉ l := by
        intro hm
        have := List.count_pos_iff.2 hm
        rw [List.count_cons_self] at hcount
        omega
      constructor
      · simp only [pickRoot]
        rw [if_pos hr]
        simp only [Complex.ofReal_re]
        rw [i2 hn]; simp
      · intro h; simp at h
    · have hne : r ≠ (c : ℂ) := by
        rintro rfl
        exact hr (by simpa using hc)
      constructor
      · simp only [pickRoot]
        rw [if_neg hr, i1]
        simp [hne.symm]
      · intro h
        simp only [List.mem_cons, not_or] at h
        simp only [pickRoot]
        rw [if_neg hr, i2 h.2]

/-- `teff_to_color(teff,'g-r')` never raises; it returns the one color in the range whose temperature is `teff`, and None if there is none.
`roots` are the complex roots of the polynomial in any order (exact, with multiplicity). -/
theorem gr_inverse (teff : ℝ) (ht : 0 < teff) (roots : List ℂ) (hroots : (roots : Multiset ℂ) = (grPoly teff).roots) :
    (∀ c, colorToTeffGr c = some teff → pickRoot roots none = some (some c)) ∧
    ((∀ c, colorToTeffGr c ≠ some teff) → pickRoot roots none = some none) := by
  have hmem : ∀ c : ℝ, (c : ℂ) ∈ roots ↔ grLog c = Real.logb 10 teff := by
    intro c
    rw [← Multiset.mem_coe, hroots, Polynomial.mem_roots (grPoly_ne teff), Polynomial.IsRoot.def, grPoly_eval]
    rw [Complex.ofReal_eq_zero, sub_eq_zero]
  have hteff : ∀ c : ℝ, -0.2 ≤ c ∧ c ≤ 0.9 → (grLog c = Real.logb 10 teff ↔ colorToTeffGr c = some teff) := by
    intro c hc
    unfold colorToTeffGr
    rw [if_pos hc, Option.some.injEq]
    show _ ↔ (10 : ℝ) ^ grLog c = teff
    constructor
    · intro h
      rw [h, Real.rpow_logb (by norm_num) (by norm_num) ht]
    · intro h
      rw [← h, Real.logb_rpow (by norm_num) (by norm_num)]
  have hform : ∀ r : ℂ, r.im = 0 → r = (r.re : ℂ) := fun r h => Complex.ext (by simp) (by simp [h])
  constructor
  · intro c hcT
    have hc : -0.2 ≤ c ∧ c ≤ 0.9 := by
      unfold colorToTeffGr at hcT
      split_ifs at hcT with h
      exact h
    have hroot : (c : ℂ) ∈ roots := (hmem c).2 ((hteff c hc).2 hcT)
    have hcount : roots.count (c : ℂ) ≤ 1 := by
      rw [← Multiset.coe_count, hroots, Polynomial.count_roots]
      by_contra hgt
      rw [not_le, Polynomial.one_lt_rootMultiplicity_iff_isRoot (grPoly_ne teff)] at hgt
      have hder := hgt.2
      rw [Polynomial.IsRoot.def, grPoly_derivative, Complex.ofReal_eq_zero] at hder
      nlinarith [hc.1, hc.2]
    have := (pickRoot_spec roots c hc hcount ?_).1
    · rw [this, if_pos hroot]
    · rintro r hr ⟨h1, h2⟩
      have e := hform r h1
      rw [e] at hr ⊢
      have g1 := (hmem _).1 hr
      have g2 := (hmem c).1 hroot
      congr 1
      rcases lt_trichotomy r.re c with h | h | h
      · have := grLog_anti _ _ h2.1 h hc.2; linarith
      · exact h
      · have := grLog_anti _ _ hc.1 h h2.2; linarith
  · intro hno
    have : ∀ (l : List ℂ), (∀ r ∈ l, r ∈ roots) → pickRoot l none = some none := by
      intro l
      induction l with
      | nil => intro _; rfl
      | cons r l ih =>
        intro h
        simp only [pickRoot]
        rw [if_neg]
        · exact ih (fun x hx => h x (by simp [hx]))
        · rintro ⟨h1, h2⟩
          have hr := h r (by simp)
          rw [hform r h1] at hr
          exact hno r.re ((hteff r.re h2).1 ((hmem _).1 hr))
    exact this roots (fun _ h => h)

/-- So temperatures of colors give the color back. -/
theorem gr_roundtrip (c t : ℝ) (h : colorToTeffGr c = some t) (roots : List ℂ) (hroots : (roots : Multiset ℂ) = (grPoly t).roots) :
    pickRoot roots none = some (some c) := by
  have ht : 0 < t := by
    unfold colorToTeffGr at h
    split_ifs at h
    simp only [Option.some.injEq] at h
    rw [← h]
    exact Real.rpow_pos_of_pos (by norm_num) _
  exact (gr_inverse t ht roots hroots).1 c h

example : ∃ t, colorToTeffGr 0.5 = some t ∧ ∃ roots : List ℂ, (roots : Multiset ℂ) = (grPoly t).roots ∧ pickRoot roots none = some (some 0.5) := by
  have h : colorToTeffGr 0.5 = some (10 ^ grLog 0.5) := by
    unfold colorToTeffGr; rw [if_pos (by norm_num)]; rfl
  refine ⟨_, h, (grPoly (10 ^ grLog 0.5)).roots.toList, by simp, gr_roundtrip 0.5 _ h _ (by simp)⟩

end Verif.PhotConv
