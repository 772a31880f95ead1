import Mathlib.Data.Rat.Defs
import Mathlib.Algebra.Order.Field.Rat
import Mathlib.Algebra.BigOperators.Group.List.Basic
import Mathlib.Algebra.BigOperators.Ring.List
import Mathlib.Tactic.Linarith
import Mathlib.Tactic.FieldSimp
import Mathlib.Tactic.Ring

/-!
# Plotting a spectrum (astropysics/spec.py, `Spectrum.plot`, 1112-1250) (C228)

The curves that are drawn: the spectrum, its errors, the invalid errors, the continuum.  Exact arithmetic, no infinite errors, no smoothing.
-/

namespace Verif.SpecPlot

/-- A pixel: x, flux, error. -/
abbrev Px := ℚ × ℚ × ℚ

abbrev Curve := List (ℚ × ℚ)

/-- Three, two or one pixels are spread out (spec.py:1150-1168). -/
def pad : List Px → List Px
  | [a, b, c] =>
    let d1 := b.1 - a.1
    let d2 := c.1 - b.1
    [(a.1 - d1 / 2, a.2), (a.1 + d1 / 2, a.2), (b.1 + d2 / 2, b.2), (c.1 + d2 / 2, c.2)]
  | [a, b] =>
    let d := b.1 - a.1
    [(a.1 - d / 2, a.2), (a.1 + d / 2, a.2), (b.1 + d / 2, b.2)]
  | [a] => [(0, a.2), (2 * a.1, a.2)]
  | l => l

/-- `xrng` (spec.py:1170-1178): strictly inside, the limits in either order. -/
def within (xrng : Option (ℚ × ℚ)) (l : List Px) : List Px :=
  match xrng with
  | none => l
  | some (a, b) =>
    let lo := if a > b then b else a
    let hi := if a > b then a else b
    l.filter fun p => decide (lo < p.1) && decide (p.1 < hi)

def mean (l : List ℚ) : ℚ := l.sum / l.length

/-- `np.max`, `0` for none (an error in the code). -/
def amax (l : List ℚ) : ℚ := l.foldr max (l.headD 0)

/-- `ploterrs`: a dictionary with a scale, a number (`True` is one: `np.isscalar(True)` holds, so the branch for `True` is never taken), or false. -/
inductive ErrArg
  | scaled (k : ℚ)
  | number (k : ℚ)
  | off

/-- `ploterrs=True`, as the code sees it (spec.py:1204-1207). -/
def errTrue : ErrArg := .number 1

/-- The valid errors (spec.py:1200). -/
def valid (l : List Px) : List Px := l.filter fun p => decide (p.2.2 < amax (l.map (·.2.1)) * 2)
def invalid (l : List Px) : List Px := l.filter fun p => !decide (p.2.2 < amax (l.map (·.2.1)) * 2)

/-- The curves of the errors and of the markers of invalid errors (spec.py:1195-1229); nothing when off or when all errors are zero. -/
def errors (arg : ErrArg) (l : List Px) : Option (Curve × Curve) :=
  if l.all fun p => decide (p.2.2 = 0) then none
  else
    let m := valid l
    let scale : Option ℚ := match arg with
      | .scaled k => some k
      | .number k => if k = 0 then none else some (k * mean (l.map (·.2.1)) / mean (m.map (·.2.2)))
      | .off => none
    match scale with
    | none => none
    | some s =>
      let level := s * mean (if 0 < m.length then m.map (·.2.2) else l.map (·.2.1))
      some (m.map fun p => (p.1, s * p.2.2), (invalid l).map fun p => (p.1, level))

/-- `plotcontinuum`: true, a number or false. -/
inductive ContArg
  | true
  | number (k : ℚ)
  | off

/-- The continuum's curve (spec.py:1231-1246), at *all* the observed x and never at `x0`.  `obs` are the spectrum's own `x`. -/
def continuum (arg : ContArg) (obs cont : List ℚ) (drawn : List Px) : Option Curve :=
  match arg with
  | .off => none
  | .true => some (obs.zip (cont.map fun c => 1 * c))
  | .number k => if k = 0 then none else some (obs.zip (cont.map fun c => k * mean (drawn.map (·.2.1)) / mean cont * c))

/-- `Spectrum.plot`: spectrum, errors, continuum (spec.py:1145-1246).  `obs` and `rest` are `x` and `x0`. -/
def plot (restframe : Bool) (xrng : Option (ℚ × ℚ)) (ea : ErrArg) (ca : ContArg) (obs rest : List ℚ) (fe : List (ℚ × ℚ)) (cont : List ℚ) :
    Curve × Option (Curve × Curve) × Option Curve :=
  let l := within xrng (pad ((if restframe then rest else obs).zip fe))
  (l.map fun p => (p.1, p.2.1), errors ea l, continuum ca obs cont l)

/-! ## Theorems -/

/-- **C228.** A spectrum of four or more pixels is drawn with exactly its pixels strictly inside the range, whichever way round that is given, each with its own flux,
at the observed or the rest-frame x. -/
theorem drawn (restframe : Bool) (a b : ℚ) (ea : ErrArg) (ca : ContArg) (obs rest : List ℚ) (fe : List (ℚ × ℚ)) (cont : List ℚ)
    (h : 4 ≤ ((if restframe = true then rest else obs).zip fe).length) :
    (plot restframe none ea ca obs rest fe cont).1 = ((if restframe = true then rest else obs).zip fe).map (fun p => (p.1, p.2.1)) ∧
    (plot restframe (some (a, b)) ea ca obs rest fe cont).1 =
      (((if restframe = true then rest else obs).zip fe).filter (fun p => decide (min a b < p.1 ∧ p.1 < max a b))).map (fun p => (p.1, p.2.1)) := by
  have hp : ∀ l : List Px, 4 ≤ l.length → pad l = l := by
    intro l hl
    match l, hl with
    | _ :: _ :: _ :: _ :: _, _ => rfl
  unfold plot
  simp only [hp _ h, within]
  refine ⟨trivial, ?_⟩
  have e1 : (if a > b then b else a) = min a b := by
    split
    · next h => exact (min_eq_right h.le).symm
    · next h => exact (min_eq_left (not_lt.1 h)).symm
  have e2 : (if a > b then a else b) = max a b := by
    split
    · next h => exact (max_eq_left h.le).symm
    · next h => exact (max_eq_right (not_lt.1 h)).symm
  rw [e1, e2]
  congr 1
  apply List.filter_congr
  intro p _
  simp

/-- **C228.** Three or two evenly spaced pixels become the edges of their bins (the last pixel's flux at its right edge), one pixel fills the axis from 0 to twice its x;
fluxes and errors stay with their pixels. -/
theorem few (x d : ℚ) (p q r : ℚ × ℚ) :
    pad [(x, p), (x + d, q), (x + 2 * d, r)] = [(x - d / 2, p), (x + d / 2, p), (x + 3 * d / 2, q), (x + 5 * d / 2, r)] ∧
    pad [(x, p), (x + d, q)] = [(x - d / 2, p), (x + d / 2, p), (x + 3 * d / 2, q)] ∧
    pad [(x, p)] = [(0, p), (2 * x, p)] := by
  refine ⟨?_, ?_, rfl⟩
  · simp only [pad]; ring_nf
  · simp only [pad]; ring_nf

theorem mean_scale (s : ℚ) (l : List ℚ) : mean (l.map fun x => s * x) = s * mean l := by
  unfold mean
  rw [List.sum_map_mul_left, List.length_map]
  simp [mul_div_assoc]

/-- **C228.** The errors: those below twice the greatest flux are drawn at their pixels times one common factor, the others as markers all at one level; with a
dictionary the factor is its scale; with a number `k` (and some valid errors that are not all zero) the drawn errors' mean is `k` times the mean flux, which is also where the
markers are. -/
theorem errors_spec (l : List Px) (hne : ∃ p ∈ l, p.2.2 ≠ 0) :
    (∀ k, ∃ level, errors (.scaled k) l = some ((valid l).map (fun p => (p.1, k * p.2.2)), (invalid l).map (fun p => (p.1, level))) ∧
      (valid l ≠ [] → level = k * mean ((valid l).map (·.2.2)))) ∧
    (∀ k, k ≠ 0 → mean ((valid l).map (·.2.2)) ≠ 0 → ∃ s, errors (.number k) l =
        some ((valid l).map (fun p => (p.1, s * p.2.2)), (invalid l).map (fun p => (p.1, k * mean (l.map (·.2.1))))) ∧
      mean ((valid l).map fun p => s * p.2.2) = k * mean (l.map (·.2.1))) ∧
    errors .off l = none := by
  have hz : (l.all fun p => decide (p.2.2 = 0)) = false := by
    obtain ⟨p, hp, hn⟩ := hne
    rw [Bool.eq_false_iff]
    intro h
    rw [List.all_eq_true] at h
    exact hn (by simpa using h p hp)
  refine ⟨?_, ?_, ?_⟩
  · intro k
    refine ⟨k * mean (if 0 < (valid l).length then (valid l).map (·.2.2) else l.map (·.2.1)), by simp only [errors, hz, Bool.false_eq_true, if_false], ?_⟩
    intro hv
    rw [if_pos (List.length_pos_iff.2 hv)]
  · intro k hk hm
    have hv : 0 < (valid l).length := by
      rw [List.length_pos_iff]
      intro h0
      rw [h0] at hm
      exact hm (by simp [mean])
    have hs : k * mean (l.map (·.2.1)) / mean ((valid l).map (·.2.2)) * mean ((valid l).map (·.2.2)) = k * mean (l.map (·.2.1)) :=
      div_mul_cancel₀ _ hm
    refine ⟨k * mean (l.map (·.2.1)) / mean ((valid l).map (·.2.2)), ?_, ?_⟩
    · simp only [errors, hz, Bool.false_eq_true, if_false, if_neg hk, if_pos hv, hs]
    · have := mean_scale (k * mean (l.map (·.2.1)) / mean ((valid l).map (·.2.2))) ((valid l).map (·.2.2))
      rw [hs, List.map_map] at this
      exact this
  · simp [errors, hz]

/-- **C228.** `ploterrs=True` does not draw the actual errors: they are stretched so that their mean is the mean flux. -/
theorem true_rescales (l : List Px) (hne : ∃ p ∈ l, p.2.2 ≠ 0) (hm : mean ((valid l).map (·.2.2)) ≠ 0) :
    ∃ s, errors errTrue l = some ((valid l).map (fun p => (p.1, s * p.2.2)), (invalid l).map (fun p => (p.1, mean (l.map (·.2.1))))) ∧
      mean ((valid l).map fun p => s * p.2.2) = mean (l.map (·.2.1)) := by
  obtain ⟨s, h1, h2⟩ := (errors_spec l hne).2.1 1 one_ne_zero hm
  refine ⟨s, ?_, ?_⟩
  · rw [one_mul] at h1; exact h1
  · rw [one_mul] at h2; exact h2

/-- Valid and invalid: every drawn pixel is one or the other, by its error. -/
theorem valid_iff (l : List Px) (p : Px) :
    (p ∈ valid l ↔ p ∈ l ∧ ∃ q ∈ l, p.2.2 < 2 * q.2.1) ∧ (p ∈ invalid l ↔ p ∈ l ∧ ∀ q ∈ l, 2 * q.2.1 ≤ p.2.2) := by
  have hmax : ∀ v : List ℚ, v ≠ [] → amax v ∈ v ∧ ∀ a ∈ v, a ≤ amax v := by
    intro v hv
    have gen : ∀ (w : List ℚ) (d : ℚ), (w.foldr max d = d ∨ w.foldr max d ∈ w) ∧ ∀ a ∈ w, a ≤ w.foldr max d := by
      intro w d
      induction w with
      | nil => simp
      | cons x w ih =>
        simp only [List.foldr_cons]
        refine ⟨?_, ?_⟩
        · rcases max_choice x (w.foldr max d) with h | h
          · right; rw [h]; exact List.mem_cons_self
          · rw [h]; rcases ih.1 with h' | h'
            · exact Or.inl h'
            · exact Or.inr (List.mem_cons_of_mem _ h')
        · intro a ha
          rcases List.mem_cons.1 ha with rfl | ha
          · exact le_max_left _ _
          · exact (ih.2 a ha).trans (le_max_right _ _)
    obtain ⟨g1, g2⟩ := gen v (v.headD 0)
    refine ⟨?_, g2⟩
    rcases g1 with g1 | g1
    · unfold amax; rw [g1]
      cases v with
      | nil => exact absurd rfl hv
      | cons x l => exact List.mem_cons_self
    · exact g1
  have key : ∀ p ∈ l, p.2.2 < amax (l.map (·.2.1)) * 2 ↔ ∃ q ∈ l, p.2.2 < 2 * q.2.1 := by
    intro p hp
    obtain ⟨g1, g2⟩ := hmax (l.map (·.2.1)) (List.ne_nil_of_mem (List.mem_map_of_mem hp))
    constructor
    · intro h
      obtain ⟨q, hq, e⟩ := List.mem_map.1 g1
      exact ⟨q, hq, by rw [e]; linarith⟩
    · rintro ⟨q, hq, h⟩
      have := g2 q.2.1 (List.mem_map.2 ⟨q, hq, rfl⟩)
      linarith
  constructor
  · simp only [valid, List.mem_filter, decide_eq_true_eq]
    exact and_congr_right fun hp => key p hp
  · simp only [invalid, List.mem_filter, Bool.not_eq_true', decide_eq_false_iff_not]
    refine and_congr_right fun hp => ?_
    rw [key p hp]
    push Not
    rfl

/-- **C228.** The continuum: as it is with `True`, scaled to `k` times the mean of what is drawn of the spectrum with a number; but always at the observed x and over the whole
spectrum, also in a rest-frame plot. -/
theorem continuum_spec (restframe : Bool) (xrng : Option (ℚ × ℚ)) (ea : ErrArg) (obs rest : List ℚ) (fe : List (ℚ × ℚ)) (cont : List ℚ) :
    (plot restframe xrng ea .true obs rest fe cont).2.2 = some (obs.zip cont) ∧
    (∀ k, k ≠ 0 → mean cont ≠ 0 → ∃ ys, (plot restframe xrng ea (.number k) obs rest fe cont).2.2 = some (obs.zip ys) ∧ ys.length = cont.length ∧
      mean ys = k * mean (((plot restframe xrng ea (.number k) obs rest fe cont).1).map (·.2))) ∧
    (plot restframe xrng ea .off obs rest fe cont).2.2 = none := by
  refine ⟨by simp [plot, continuum], ?_, rfl⟩
  intro k hk hm
  refine ⟨cont.map fun c => k * mean (((plot restframe xrng ea (.number k) obs rest fe cont).1).map (·.2)) / mean cont * c, ?_, by simp, ?_⟩
  · simp only [plot, continuum, if_neg hk, List.map_map]
    rfl
  rw [mean_scale, div_mul_cancel₀ _ hm]

/-! ## Concrete cases -/

example : plot false (some (5, 1)) errTrue .true [1, 2, 3, 4, 5] [] [(1, 1), (2, 1), (4, 2), (6, 9), (1, 1)] [1, 1, 1, 1, 1] =
    ([(2, 2), (3, 4), (4, 6)], some ([(2, 3), (3, 6), (4, 27)].take 3 |>.map (fun p : ℚ × ℚ => (p.1, p.2 / 3)), []), some [(1, 1), (2, 1), (3, 1), (4, 1), (5, 1)]) := by
  decide +kernel

example : (∃ p ∈ ([(2, 2, 1), (3, 4, 2)] : List Px), p.2.2 ≠ 0) ∧ mean ((valid [(2, 2, 1), (3, 4, 2)]).map (·.2.2)) ≠ 0 := by decide +kernel

end Verif.SpecPlot
