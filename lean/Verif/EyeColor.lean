import Mathlib.Data.Rat.Defs
import Mathlib.Algebra.Order.Field.Rat
import Mathlib.Tactic.Linarith
import Mathlib.Tactic.FieldSimp
import Mathlib.Tactic.Positivity
import Mathlib.Tactic.NormNum

/-!
# The colour of a spectrum for the eye (astropysics/spec.py 819-842, astropysics/phot.py 3659-3670) (C217)

The flux of a spectrum in each of the bands of the group 'eye' is a parameter (`PhotBand` models it); bands are compared by their centre (phot.py 214-256).
-/

namespace Verif.EyeColor

/-- A band: its centre, and the flux of the spectrum in it. -/
structure Band where
  cen : ℚ
  flux : ℚ
  deriving DecidableEq

/-- `sorted(eyed.values())`: by centre. -/
def insertBand (b : Band) : List Band → List Band
  | [] => [b]
  | c :: l => if c.cen ≤ b.cen then c :: insertBand b l else b :: c :: l

def sortBands (l : List Band) : List Band := l.foldl (fun s b => insertBand b s) []

abbrev Rgb := ℚ × ℚ × ℚ

/-- `rgbEyeColor`, spec.py 820-842; `none` for a ValueError. -/
def color (sens : Rgb) (eye : List Band) : Option Rgb :=
  match (sortBands eye).map Band.flux with
  | [b, g, r] =>
    let f : Rgb := (r / sens.1, g / sens.2.1, b / sens.2.2)
    let m := max (max f.1 f.2.1) f.2.2
    some (f.1 / m, f.2.1 / m, f.2.2 / m)
  | _ => none

/-- `__generateRGBSensTuple`, phot.py 3661-3670: the colour of a black body with the sensitivities before, which are all 1 (spec.py 819). -/
def calibrated (blackbody : List Band) : Option Rgb := color (1, 1, 1) blackbody

/-- The three bands of the eye, blue, green and red by their centres, with fluxes `b`, `g`, `r`, in any order. -/
structure Eye (l : List Band) (b g r : ℚ) : Prop where
  bands : ∃ cb cg cr : ℚ, cb < cg ∧ cg < cr ∧ (⟨cb, b⟩ : Band) ∈ l ∧ (⟨cg, g⟩ : Band) ∈ l ∧ (⟨cr, r⟩ : Band) ∈ l
  three : l.length = 3

theorem sort_eye (l : List Band) (b g r : ℚ) (h : Eye l b g r) : (sortBands l).map Band.flux = [b, g, r] := by
  obtain ⟨⟨cb, cg, cr, h1, h2, mb, mg, mr⟩, h3⟩ := h
  obtain ⟨x, y, z, rfl⟩ := List.length_eq_three.1 h3
  have n1 : ¬ cg ≤ cb := not_le.2 h1
  have n2 : ¬ cr ≤ cg := not_le.2 h2
  have n3 : ¬ cr ≤ cb := not_le.2 (h1.trans h2)
  have l1 := h1.le
  have l2 := h2.le
  have l3 := (h1.trans h2).le
  have e12 : (⟨cb, b⟩ : Band) ≠ ⟨cg, g⟩ := fun e => h1.ne (congrArg Band.cen e)
  have e13 : (⟨cb, b⟩ : Band) ≠ ⟨cr, r⟩ := fun e => (h1.trans h2).ne (congrArg Band.cen e)
  have e23 : (⟨cg, g⟩ : Band) ≠ ⟨cr, r⟩ := fun e => h2.ne (congrArg Band.cen e)
  simp only [List.mem_cons, List.not_mem_nil, or_false] at mb mg mr
  rcases mb with hb | hb | hb <;> rcases mg with hg | hg | hg <;> rcases mr with hr | hr | hr <;>
    first
      | exact absurd (hb.trans hg.symm) e12
      | exact absurd (hb.trans hr.symm) e13
      | exact absurd (hg.trans hr.symm) e23
      | (subst hb; subst hg; subst hr; simp [sortBands, insertBand, n1, n2, n3, l1, l2, l3])

/-- C217: it does not matter in which order the three bands come: red is the one with the longest wavelength. -/
theorem color_eq (sens : Rgb) (l : List Band) (b g r : ℚ) (h : Eye l b g r) :
    color sens l = some (r / sens.1 / max (max (r / sens.1) (g / sens.2.1)) (b / sens.2.2),
      g / sens.2.1 / max (max (r / sens.1) (g / sens.2.1)) (b / sens.2.2), b / sens.2.2 / max (max (r / sens.1) (g / sens.2.1)) (b / sens.2.2)) := by
  unfold color
  rw [sort_eye l b g r h]

/-- C217: with positive fluxes and sensitivities all three are positive and at most 1, and one of them is 1. -/
theorem in_range (sens : Rgb) (hs : 0 < sens.1 ∧ 0 < sens.2.1 ∧ 0 < sens.2.2) (l : List Band) (b g r : ℚ) (h : Eye l b g r) (hb : 0 < b) (hg : 0 < g) (hr : 0 < r) :
    ∃ c, color sens l = some c ∧ (0 < c.1 ∧ c.1 ≤ 1) ∧ (0 < c.2.1 ∧ c.2.1 ≤ 1) ∧ (0 < c.2.2 ∧ c.2.2 ≤ 1) ∧ (c.1 = 1 ∨ c.2.1 = 1 ∨ c.2.2 = 1) := by
  refine ⟨_, color_eq sens l b g r h, ?_⟩
  obtain ⟨s1, s2, s3⟩ := hs
  have p1 : 0 < r / sens.1 := div_pos hr s1
  have p2 : 0 < g / sens.2.1 := div_pos hg s2
  have p3 : 0 < b / sens.2.2 := div_pos hb s3
  generalize r / sens.1 = x at *
  generalize g / sens.2.1 = y at *
  generalize b / sens.2.2 = z at *
  have hm : 0 < max (max x y) z := lt_of_lt_of_le p3 (le_max_right _ _)
  refine ⟨⟨div_pos p1 hm, (div_le_one hm).2 (le_trans (le_max_left _ _) (le_max_left _ _))⟩,
    ⟨div_pos p2 hm, (div_le_one hm).2 (le_trans (le_max_right _ _) (le_max_left _ _))⟩, ⟨div_pos p3 hm, (div_le_one hm).2 (le_max_right _ _)⟩, ?_⟩
  simp only
  rcases max_choice (max x y) z with e | e
  · rcases max_choice x y with e' | e'
    · left; rw [e, e']; exact div_self p1.ne'
    · right; left; rw [e, e']; exact div_self p2.ne'
  · right; right; rw [e]; exact div_self p3.ne'

/-- C217: the colour does not depend on the brightness. -/
theorem brightness (sens : Rgb) (l l' : List Band) (b g r k : ℚ) (hk : 0 < k) (h : Eye l b g r) (h' : Eye l' (k * b) (k * g) (k * r)) : color sens l' = color sens l := by
  rw [color_eq sens l b g r h, color_eq sens l' _ _ _ h']
  have e : max (max (k * r / sens.1) (k * g / sens.2.1)) (k * b / sens.2.2) = k * max (max (r / sens.1) (g / sens.2.1)) (b / sens.2.2) := by
    rw [mul_max_of_nonneg _ _ hk.le, mul_max_of_nonneg _ _ hk.le]
    simp only [mul_div_assoc]
  rw [e]
  simp only [mul_div_assoc, mul_div_mul_left _ _ hk.ne']

/-- C217: after the calibration the black body used for it, at any brightness, is white. -/
theorem white (bb l : List Band) (b g r k : ℚ) (hb : 0 < b) (hg : 0 < g) (hr : 0 < r) (hk : 0 < k) (h : Eye bb b g r) (h' : Eye l (k * b) (k * g) (k * r)) :
    ∃ sens, calibrated bb = some sens ∧ color sens l = some (1, 1, 1) := by
  refine ⟨_, color_eq (1, 1, 1) bb b g r h, ?_⟩
  rw [brightness _ bb l b g r k hk h h', color_eq _ bb b g r h]
  simp only [div_one]
  have hm : 0 < max (max r g) b := lt_of_lt_of_le hb (le_max_right _ _)
  generalize max (max r g) b = m at hm
  have e : ∀ x : ℚ, 0 < x → x / (x / m) = m := by
    intro x hx; field_simp
  rw [e r hr, e g hg, e b hb, max_self, max_self, div_self hm.ne']

/-- C217: a group without exactly three bands is a ValueError. -/
theorem not_three (sens : Rgb) (l : List Band) (h : l.length ≠ 3) : color sens l = none := by
  have hi : ∀ b l, (insertBand b l).length = l.length + 1 := by
    intro b l
    induction l with
    | nil => rfl
    | cons c l ih => unfold insertBand; split_ifs <;> simp [ih]
  have hf : ∀ (l s : List Band), (l.foldl (fun s b => insertBand b s) s).length = s.length + l.length := by
    intro l
    induction l with
    | nil => simp
    | cons b l ih => intro s; rw [List.foldl_cons, ih, hi]; simp; omega
  have hl : ((sortBands l).map Band.flux).length ≠ 3 := by
    rw [List.length_map, sortBands, hf]; simpa using h
  unfold color
  split
  · rename_i b g r e
    rw [e] at hl; simp at hl
  · rfl

example : color (1, 2, 1) [⟨5400, 4⟩, ⟨4400, 1⟩, ⟨5700, 8⟩] = some (1, 1 / 4, 1 / 8) := by decide +kernel

example : Eye [⟨5400, 4⟩, ⟨4400, 1⟩, ⟨5700, 8⟩] 1 4 8 := ⟨⟨4400, 5400, 5700, by norm_num, by norm_num, by simp, by simp, by simp⟩, rfl⟩

end Verif.EyeColor
