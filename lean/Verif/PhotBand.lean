import Mathlib.Analysis.SpecialFunctions.Log.Base
import Mathlib.Data.List.Sort
import Mathlib.Tactic.Linarith
import Mathlib.Tactic.Ring
import Mathlib.Tactic.FieldSimp
import Verif.Phot

/-!
# Bands (astropysics/phot.py 147-460, 572-680)

`ArrayBand` and the flux and magnitude of a spectrum in a band.  Exact real arithmetic; scipy's `simps` is any linear functional of the
sampled integrand.
-/

namespace Verif.PhotBand

open Verif.Phot (fluxToMag magToFlux a)

/-- Samples (position, value). -/
abbrev Samples := List (ℝ × ℝ)

/-- Largest and smallest element (numpy's max and min raise for empty arrays: bands have samples). -/
noncomputable def maxOf : List ℝ → ℝ
  | [] => 0
  | [x] => x
  | x :: y :: l => max x (maxOf (y :: l))
noncomputable def minOf : List ℝ → ℝ
  | [] => 0
  | [x] => x
  | x :: y :: l => min x (minOf (y :: l))

/-- The attributes of an ArrayBand. -/
structure Band where
  pts : Samples
  N : ℝ
  norm : Bool

/-- Changing the values only. -/
def mapS (f : ℝ → ℝ) (l : Samples) : Samples := l.map (fun p => (p.1, f p.2))
def values (l : Samples) : List ℝ := l.map (·.2)

/-- `ArrayBand.__init__`, phot.py 572-597, after the samples have been ordered by `argsort` (`sort`). -/
noncomputable def construct (sort : Samples → Samples) (l : Samples) (normalized : Bool) : Band :=
  let s := sort l
  let s1 := if minOf (values s) < 0 then mapS (fun v => v - minOf (values s)) s else s
  let N := maxOf (values s1)
  let s2 := if normalized then mapS (fun v => v / N) s1 else s1
  ⟨s2, N, normalized⟩

/-- `ArrayBand._applyUnits`, phot.py 600-606 (positions and values transformed by `xf`, then rescaled). -/
noncomputable def applyUnits (xf : ℝ × ℝ → ℝ × ℝ) (b : Band) : Band :=
  let s := b.pts.map xf
  let mx := maxOf (values s)
  let s1 := mapS (fun v => v / mx) s
  { b with pts := if b.norm then s1 else mapS (fun v => v / b.N) s1 }

inductive Err
  | attribute | value
deriving DecidableEq, Repr

/-- `ArrayBand._setNorm`, phot.py 636-644: `self.S *= ...` assigns to a property without setter. -/
def setNorm (b : Band) (val : Bool) : Except Err Band :=
  if val ≠ b.norm then .error .attribute else .ok { b with norm := val }

/-- What sorting has to do: reorder, with increasing positions. -/
structure SortSpec (sort : Samples → Samples) : Prop where
  perm : ∀ l, (sort l).Perm l
  sorted : ∀ l, (sort l).Pairwise (fun p q => p.1 ≤ q.1)

theorem le_maxOf (l : List ℝ) (x : ℝ) (h : x ∈ l) : x ≤ maxOf l := by
  induction l with
  | nil => simp at h
  | cons y l ih =>
    cases l with
    | nil => simp at h; simp [maxOf, h]
    | cons z l =>
      rw [List.mem_cons] at h
      simp only [maxOf]
      rcases h with rfl | h
      · exact le_max_left _ _
      · exact (ih h).trans (le_max_right _ _)

theorem maxOf_mem (l : List ℝ) (h : l ≠ []) : maxOf l ∈ l := by
  induction l with
  | nil => exact absurd rfl h
  | cons y l ih =>
    cases l with
    | nil => simp [maxOf]
    | cons z l =>
      simp only [maxOf]
      rcases max_choice y (maxOf (z :: l)) with e | e <;> rw [e]
      · simp
      · exact List.mem_cons_of_mem _ (ih (by simp))

theorem minOf_le (l : List ℝ) (x : ℝ) (h : x ∈ l) : minOf l ≤ x := by
  induction l with
  | nil => simp at h
  | cons y l ih =>
    cases l with
    | nil => simp at h; simp [minOf, h]
    | cons z l =>
      rw [List.mem_cons] at h
      simp only [minOf]
      rcases h with rfl | h
      · exact min_le_left _ _
      · exact (min_le_right _ _).trans (ih h)

theorem minOf_mem (l : List ℝ) (h : l ≠ []) : minOf l ∈ l := by
  induction l with
  | nil => exact absurd rfl h
  | cons y l ih =>
    cases l with
    | nil => simp [minOf]
    | cons z l =>
      simp only [minOf]
      rcases min_choice y (minOf (z :: l)) with e | e <;> rw [e]
      · simp
      · exact List.mem_cons_of_mem _ (ih (by simp))

theorem maxOf_unique (l : List ℝ) (m : ℝ) (h1 : m ∈ l) (h2 : ∀ x ∈ l, x ≤ m) : maxOf l = m :=
  le_antisymm (h2 _ (maxOf_mem l (List.ne_nil_of_mem h1))) (le_maxOf l m h1)

theorem minOf_unique (l : List ℝ) (m : ℝ) (h1 : m ∈ l) (h2 : ∀ x ∈ l, m ≤ x) : minOf l = m :=
  le_antisymm (minOf_le l m h1) (h2 _ (minOf_mem l (List.ne_nil_of_mem h1)))

theorem values_mapS (f : ℝ → ℝ) (l : Samples) : values (mapS f l) = (values l).map f := by simp [values, mapS]
theorem positions_mapS (f : ℝ → ℝ) (l : Samples) : (mapS f l).map (·.1) = l.map (·.1) := by
  simp [mapS, Function.comp_def]
theorem mapS_mapS (f g : ℝ → ℝ) (l : Samples) : mapS f (mapS g l) = mapS (fun v => f (g v)) l := by simp [mapS]
theorem mapS_id (l : Samples) (f : ℝ → ℝ) (h : ∀ v ∈ values l, f v = v) : mapS f l = l := by
  unfold mapS
  conv_rhs => rw [← List.map_id l]
  apply List.map_congr_left
  intro p hp
  have := h p.2 (List.mem_map_of_mem hp)
  simp [this]

/-- The samples after the offset. -/
noncomputable def offset (s : Samples) : Samples := if minOf (values s) < 0 then mapS (fun v => v - minOf (values s)) s else s

theorem offset_nonneg (s : Samples) (v : ℝ) (h : v ∈ values (offset s)) : 0 ≤ v := by
  unfold offset at h
  split_ifs at h with hm
  · rw [values_mapS, List.mem_map] at h
    obtain ⟨w, hw, rfl⟩ := h
    have := minOf_le _ _ hw
    linarith
  · have := minOf_le _ _ h
    linarith

/-- A band has its samples in order of position, no negative response (the lowest is 0 if there was a negative one; otherwise the
responses are as given up to normalisation), and if normalised (and not flat at a negative value or 0) a peak of exactly 1. -/
theorem band_shape (sort : Samples → Samples) (hs : SortSpec sort) (l : Samples) (hl : l ≠ []) (normalized : Bool) :
    let b := construct sort l normalized
    (b.pts.map (·.1)).Perm (l.map (·.1)) ∧ b.pts.Pairwise (fun p q => p.1 ≤ q.1) ∧
    (∀ v ∈ values b.pts, 0 ≤ v) ∧
    ((∃ v ∈ values l, v < 0) → 0 ∈ values b.pts) ∧
    (b.N ≠ 0 → normalized = true → 1 ∈ values b.pts ∧ ∀ v ∈ values b.pts, v ≤ 1) ∧
    ((∀ v ∈ values l, 0 ≤ v) → normalized = false → b.pts.Perm l) := by
  intro b
  have hperm := hs.perm l
  have hne : sort l ≠ [] := fun e => hl (List.perm_nil.1 (by rw [← e]; exact hperm.symm))
  have hvp : (values (sort l)).Perm (values l) := hperm.map _
  have hvne : values (sort l) ≠ [] := by simpa [values] using hne
  have hb : b = ⟨if normalized then mapS (fun v => v / maxOf (values (offset (sort l)))) (offset (sort l)) else offset (sort l),
    maxOf (values (offset (sort l))), normalized⟩ := rfl
  have hpos : (offset (sort l)).map (·.1) = (sort l).map (·.1) := by
    unfold offset; split_ifs
    · exact positions_mapS _ _
    · rfl
  have hpos2 : b.pts.map (·.1) = (sort l).map (·.1) := by
    rw [hb, ← hpos]
    simp only
    split_ifs
    · exact positions_mapS _ _
    · rfl
  have hone : values (offset (sort l)) ≠ [] := by
    intro e
    have : (offset (sort l)).map (·.1) = [] := by
      have : offset (sort l) = [] := by simpa [values] using e
      rw [this]; rfl
    rw [hpos] at this
    exact hne (by simpa using this)
  have hNnn : 0 ≤ maxOf (values (offset (sort l))) := offset_nonneg _ _ (maxOf_mem _ hone)
  have hzero : (∃ v ∈ values l, v < 0) → 0 ∈ values (offset (sort l)) := by
    rintro ⟨v, hv, hneg⟩
    have hm : minOf (values (sort l)) < 0 := lt_of_le_of_lt (minOf_le _ v (hvp.mem_iff.2 hv)) hneg
    unfold offset
    rw [if_pos hm, values_mapS, List.mem_map]
    exact ⟨_, minOf_mem _ hvne, sub_self _⟩
  refine ⟨?_, ?_, ?_, ?_, ?_, ?_⟩
  · rw [hpos2]; exact hperm.map _
  · have h1 : (b.pts.map (·.1)).Pairwise (· ≤ ·) := by
      rw [hpos2, List.pairwise_map]; exact hs.sorted l
    rw [List.pairwise_map] at h1; exact h1
  · intro v hv
    rw [hb] at hv
    simp only at hv
    split_ifs at hv
    · rw [values_mapS, List.mem_map] at hv
      obtain ⟨w, hw, rfl⟩ := hv
      exact div_nonneg (offset_nonneg _ _ hw) hNnn
    · exact offset_nonneg _ _ hv
  · intro h
    have hz := hzero h
    rw [hb]
    simp only
    split_ifs
    · rw [values_mapS, List.mem_map]
      exact ⟨0, hz, zero_div _⟩
    · exact hz
  · intro hN hnorm
    have hN' : maxOf (values (offset (sort l))) ≠ 0 := hN
    rw [hb]
    simp only
    rw [if_pos hnorm, values_mapS]
    constructor
    · rw [List.mem_map]
      exact ⟨_, maxOf_mem _ hone, div_self hN'⟩
    · intro v hv
      rw [List.mem_map] at hv
      obtain ⟨w, hw, rfl⟩ := hv
      rw [div_le_one (lt_of_le_of_ne hNnn hN'.symm)]
      exact le_maxOf _ _ hw
  · intro hnn hnorm
    rw [hb]
    simp only
    rw [if_neg (by simp [hnorm])]
    have : ¬ minOf (values (sort l)) < 0 := by
      have := hnn _ (hvp.mem_iff.1 (minOf_mem _ hvne))
      linarith
    unfold offset
    rw [if_neg this]
    exact hperm

theorem maxOf_map_mul (l : List ℝ) (k : ℝ) (hk : 0 < k) : maxOf (l.map (fun v => k * v)) = k * maxOf l := by
  by_cases h : l = []
  · simp [h, maxOf]
  · apply maxOf_unique
    · exact List.mem_map_of_mem (maxOf_mem l h)
    · intro x hx
      obtain ⟨y, hy, rfl⟩ := List.mem_map.1 hx
      exact mul_le_mul_of_nonneg_left (le_maxOf _ _ hy) hk.le

theorem minOf_map_mul (l : List ℝ) (k : ℝ) (hk : 0 < k) : minOf (l.map (fun v => k * v)) = k * minOf l := by
  by_cases h : l = []
  · simp [h, minOf]
  · apply minOf_unique
    · exact List.mem_map_of_mem (minOf_mem l h)
    · intro x hx
      obtain ⟨y, hy, rfl⟩ := List.mem_map.1 hx
      exact mul_le_mul_of_nonneg_left (minOf_le _ _ hy) hk.le

/-- A normalised band does not depend on the scale of the response it was made from (for a sort that looks at the positions only). -/
theorem band_scale (sort : Samples → Samples) (hk : ∀ f l, sort (mapS f l) = mapS f (sort l)) (l : Samples) (k : ℝ) (hpos : 0 < k) :
    (construct sort (mapS (fun v => k * v) l) true).pts = (construct sort l true).pts := by
  have hoff : ∀ s, offset (mapS (fun v => k * v) s) = mapS (fun v => k * v) (offset s) := by
    intro s
    unfold offset
    rw [values_mapS, minOf_map_mul _ _ hpos]
    have : k * minOf (values s) < 0 ↔ minOf (values s) < 0 := by
      constructor
      · intro h; by_contra hn; have := mul_nonneg hpos.le (not_lt.1 hn); linarith
      · intro h; exact mul_neg_of_pos_of_neg hpos h
    split_ifs with h1 h2 h2
    · rw [mapS_mapS, mapS_mapS]; congr 1; funext v; ring
    · exact absurd (this.1 h1) h2
    · exact absurd (this.2 h2) h1
    · rfl
  show mapS (fun v => v / maxOf (values (offset (sort (mapS (fun v => k * v) l))))) (offset (sort (mapS (fun v => k * v) l))) =
    mapS (fun v => v / maxOf (values (offset (sort l)))) (offset (sort l))
  rw [hk, hoff, mapS_mapS, values_mapS, maxOf_map_mul _ _ hpos]
  congr 1; funext v
  rw [mul_div_mul_left _ _ hpos.ne']

/-- Making a band from the positions and responses of a normalised band gives the same band. -/
theorem band_reconstruct (sort : Samples → Samples) (hs : SortSpec sort) (hid : ∀ l, l.Pairwise (fun p q : ℝ × ℝ => p.1 ≤ q.1) → sort l = l)
    (l : Samples) (hl : l ≠ []) (hN : (construct sort l true).N ≠ 0) :
    (construct sort (construct sort l true).pts true).pts = (construct sort l true).pts := by
  obtain ⟨_, h2, h3, _, h5, _⟩ := band_shape sort hs l hl true
  obtain ⟨h6, h7⟩ := h5 hN rfl
  set p := (construct sort l true).pts
  show mapS (fun v => v / maxOf (values (offset (sort p)))) (offset (sort p)) = p
  rw [hid p h2]
  have hmin : ¬ minOf (values p) < 0 := by
    have := h3 _ (minOf_mem (values p) (List.ne_nil_of_mem h6)); linarith
  have hoff : offset p = p := by unfold offset; rw [if_neg hmin]
  rw [hoff, maxOf_unique _ 1 h6 h7]
  exact mapS_id _ _ (fun v _ => div_one v)

/-- `normalized` cannot be changed: assigning the other value raises AttributeError. -/
theorem normalized_fixed (b b' : Band) (val : Bool) (h : setNorm b val = .ok b') : b' = b ∧ setNorm b (!b.norm) = .error .attribute := by
  unfold setNorm at h ⊢
  split_ifs at h with hv
  simp only [Except.ok.injEq] at h
  constructor
  · rw [← h]
    have : val = b.norm := by simpa using hv
    rw [this]
  · rw [if_pos]; simp

/-- A change of units keeps the peak of a normalised band at 1; that of other bands becomes 1/N instead of N, N the peak before normalisation. -/
theorem units_peak (xf : ℝ × ℝ → ℝ × ℝ) (b : Band) (hne : b.pts ≠ []) (hmx : 0 < maxOf (values (b.pts.map xf))) :
    (b.norm = true → maxOf (values (applyUnits xf b).pts) = 1) ∧
    (b.norm = false → 0 < b.N → maxOf (values (applyUnits xf b).pts) = 1 / b.N ∧
      (maxOf (values (applyUnits xf b).pts) = b.N ↔ b.N = 1)) := by
  set s := b.pts.map xf with hsd
  have hsne : values s ≠ [] := by simp [hsd, values, hne]
  have h1 : maxOf (values (mapS (fun v => v / maxOf (values s)) s)) = 1 := by
    rw [values_mapS]
    apply maxOf_unique
    · exact List.mem_map.2 ⟨_, maxOf_mem _ hsne, div_self hmx.ne'⟩
    · intro x hx
      obtain ⟨y, hy, rfl⟩ := List.mem_map.1 hx
      rw [div_le_one hmx]; exact le_maxOf _ _ hy
  constructor
  · intro hn
    show maxOf (values (if b.norm then mapS (fun v => v / maxOf (values s)) s else mapS (fun v => v / b.N) (mapS (fun v => v / maxOf (values s)) s))) = 1
    rw [if_pos hn]; exact h1
  · intro hn hN
    have key : maxOf (values (applyUnits xf b).pts) = 1 / b.N := by
      show maxOf (values (if b.norm then mapS (fun v => v / maxOf (values s)) s else mapS (fun v => v / b.N) (mapS (fun v => v / maxOf (values s)) s))) = _
      rw [if_neg (by simp [hn]), values_mapS]
      have e : (fun v : ℝ => v / b.N) = (fun v => (1 / b.N) * v) := by funext v; ring
      rw [e, maxOf_map_mul _ _ (by positivity), h1, mul_one]
    refine ⟨key, ?_⟩
    rw [key, div_eq_iff hN.ne']
    constructor
    · intro h; nlinarith
    · intro h; rw [h]; norm_num

/-! ## Flux and magnitude in a band -/

/-- `numpy.interp` on increasing positions. -/
noncomputable def interp : Samples → ℝ → ℝ
  | [], _ => 0
  | [p], _ => p.2
  | p :: q :: rest, x =>
    if x ≤ p.1 then p.2
    else if x ≤ q.1 then p.2 + (x - p.1) * (q.2 - p.2) / (q.1 - p.1)
    else interp (q :: rest) x

/-- A spectrum argument of `computeFlux`: an array of the band's length, or samples (already in the unit of the band). -/
inductive Spec
  | array (y : List ℝ)
  | spectrum (s : Samples)

/-- Everything `computeFlux` uses of the band: samples, center, FWHM, zero point, whether its unit is a wavelength. -/
structure BandInfo where
  pts : Samples
  cen : ℝ
  fwhm : ℝ
  zpt : ℝ
  wavelength : Bool

/-- `isOverlapped`, phot.py 380-394. -/
def Overlapped (b : BandInfo) (x : List ℝ) : Prop := b.cen + b.fwhm / 2 ≤ maxOf x ∧ minOf x ≤ b.cen - b.fwhm / 2

/-- The mean number of samples per unit of position. -/
noncomputable def density (x : List ℝ) : ℝ := x.length / (maxOf x - minOf x)

open Classical in
/-- The end of `computeFlux`, phot.py 445-457: check, weight by the position, sort and integrate the samples of the integrand. -/
noncomputable def finish (sort : Samples → Samples) (simps : Samples → ℝ) (b : BandInfo) (check : Bool) (xy : Samples) : Except Err ℝ :=
  if check = true ∧ ¬ Overlapped b (xy.map Prod.fst) then .error .value
  else .ok (simps (sort (xy.map (fun p : ℝ × ℝ => (p.1, if b.wavelength then p.2 * p.1 else p.2 / p.1)))))

open Classical in
/-- `computeFlux(spec,'linear',aligntoband,overlapcheck)`, phot.py 404-457: the integrand (position, value) is sorted and integrated by
`simps`.  An array is taken as the integrand itself (line 424), without the response.  (Units: the spectrum is converted to the
unit of the band and back, see Spectrum.lean; here it is in that unit.) -/
noncomputable def computeFlux (sort : Samples → Samples) (simps : Samples → ℝ) (b : BandInfo) (sp : Spec) (align : Option Bool)
    (check : Bool) : Except Err ℝ :=
  match sp with
  | .array y =>
    if y.length ≠ b.pts.length then .error .value
    else finish sort simps b check ((b.pts.map Prod.fst).zip y)
  | .spectrum s =>
    if align.getD (decide (density (b.pts.map Prod.fst) > density (s.map Prod.fst))) = true then
      finish sort simps b check (b.pts.map (fun p : ℝ × ℝ => (p.1, p.2 * interp (sort s) p.1)))
    else finish sort simps b check (s.map (fun p : ℝ × ℝ => (p.1, interp (sort b.pts) p.1 * p.2)))

/-- `computeMag`, phot.py 396-402. -/
noncomputable def computeMag (sort : Samples → Samples) (simps : Samples → ℝ) (b : BandInfo) (sp : Spec) (align : Option Bool)
    (check : Bool) : Except Err ℝ :=
  match computeFlux sort simps b sp align check with
  | .ok f => .ok (fluxToMag (f / b.zpt))
  | .error e => .error e

/-- `computeZptFromSpectrum`, phot.py 459-470. -/
noncomputable def computeZpt (sort : Samples → Samples) (simps : Samples → ℝ) (b : BandInfo) (sp : Spec) (align : Option Bool)
    (check : Bool) : Except Err BandInfo :=
  match computeFlux sort simps b sp align check with
  | .ok f => .ok { b with zpt := f }
  | .error e => .error e

/-- A spectrum `k` times as bright. -/
def Spec.scale (k : ℝ) : Spec → Spec
  | .array y => .array (y.map (fun v => k * v))
  | .spectrum s => .spectrum (mapS (fun v => k * v) s)

theorem interp_scale (k : ℝ) (l : Samples) (x : ℝ) : interp (mapS (fun v => k * v) l) x = k * interp l x := by
  induction l with
  | nil => simp [interp, mapS]
  | cons p l ih =>
    cases l with
    | nil => simp [interp, mapS]
    | cons q l =>
      simp only [mapS, List.map_cons, interp] at ih ⊢
      split_ifs
      · rfl
      · ring
      · exact ih

/-- Brightening the spectrum by a factor brightens the flux by that factor (and raises no differently). -/
theorem flux_scale (sort : Samples → Samples) (hk : ∀ f l, sort (mapS f l) = mapS f (sort l)) (simps : Samples → ℝ)
    (hi : ∀ (c : ℝ) l, simps (mapS (fun v => c * v) l) = c * simps l) (b : BandInfo) (sp : Spec) (align : Option Bool) (check : Bool)
    (k : ℝ) :
    computeFlux sort simps b (sp.scale k) align check = (computeFlux sort simps b sp align check).map (fun f => k * f) := by
  have hfin : ∀ xy : Samples, finish sort simps b check (mapS (fun v => k * v) xy) = (finish sort simps b check xy).map (fun f => k * f) := by
    intro xy
    unfold finish
    have e0 : (mapS (fun v => k * v) xy).map Prod.fst = xy.map Prod.fst := positions_mapS _ _
    rw [e0]
    have e : (mapS (fun v => k * v) xy).map (fun p : ℝ × ℝ => (p.1, if b.wavelength then p.2 * p.1 else p.2 / p.1)) =
        mapS (fun v => k * v) (xy.map (fun p : ℝ × ℝ => (p.1, if b.wavelength then p.2 * p.1 else p.2 / p.1))) := by
      unfold mapS
      rw [List.map_map, List.map_map]
      apply List.map_congr_left
      intro p _
      simp only [Function.comp]
      split_ifs
      · rw [mul_assoc]
      · rw [mul_div_assoc]
    rw [e, hk, hi]
    split_ifs <;> rfl
  cases sp with
  | array y =>
    simp only [computeFlux, Spec.scale, List.length_map]
    split_ifs with h1
    · rfl
    · have e : (b.pts.map Prod.fst).zip (y.map (fun v => k * v)) = mapS (fun v => k * v) ((b.pts.map Prod.fst).zip y) := by
        rw [List.zip_map_right]
        rfl
      rw [e]
      exact hfin _
  | spectrum s =>
    simp only [computeFlux, Spec.scale]
    have e0 : (mapS (fun v => k * v) s).map Prod.fst = s.map Prod.fst := positions_mapS _ _
    rw [e0]
    split_ifs with h
    · have e : (b.pts.map (fun p : ℝ × ℝ => (p.1, p.2 * interp (sort (mapS (fun v => k * v) s)) p.1))) =
          mapS (fun v => k * v) (b.pts.map (fun p : ℝ × ℝ => (p.1, p.2 * interp (sort s) p.1))) := by
        rw [hk]
        conv_rhs => unfold mapS
        rw [List.map_map]
        apply List.map_congr_left
        intro p _
        simp only [Function.comp]
        rw [interp_scale]
        congr 1; ring
      rw [e]
      exact hfin _
    · have e : ((mapS (fun v => k * v) s).map (fun p : ℝ × ℝ => (p.1, interp (sort b.pts) p.1 * p.2))) =
          mapS (fun v => k * v) (s.map (fun p : ℝ × ℝ => (p.1, interp (sort b.pts) p.1 * p.2))) := by
        unfold mapS
        rw [List.map_map, List.map_map]
        apply List.map_congr_left
        intro p _
        simp only [Function.comp]
        congr 1; ring
      rw [e]
      exact hfin _

/-- A spectrum `k` times as bright is `2.5 log10 k` magnitudes brighter in every band. -/
theorem mag_scale (sort : Samples → Samples) (hk : ∀ f l, sort (mapS f l) = mapS f (sort l)) (simps : Samples → ℝ)
    (hi : ∀ (c : ℝ) l, simps (mapS (fun v => c * v) l) = c * simps l) (b : BandInfo) (hz : 0 < b.zpt) (sp : Spec) (align : Option Bool)
    (check : Bool) (k : ℝ) (hpos : 0 < k) (f : ℝ) (hf : computeFlux sort simps b sp align check = .ok f) (hfp : 0 < f) :
    ∃ m, computeMag sort simps b sp align check = .ok m ∧
      computeMag sort simps b (sp.scale k) align check = .ok (m - 2.5 * Real.logb 10 k) := by
  refine ⟨fluxToMag (f / b.zpt), by simp [computeMag, hf], ?_⟩
  unfold computeMag
  rw [flux_scale sort hk simps hi, hf]
  simp only [Except.map]
  rw [(Verif.Phot.pogson 0 _).1, (Verif.Phot.pogson 0 _).1, mul_div_assoc, Real.logb_mul hpos.ne' (by positivity)]
  congr 1
  ring

/-- The spectrum that defines the zero point has magnitude 0. -/
theorem zeropoint (sort : Samples → Samples) (simps : Samples → ℝ) (b b' : BandInfo) (sp : Spec) (align : Option Bool) (check : Bool)
    (h : computeZpt sort simps b sp align check = .ok b') (hne : b'.zpt ≠ 0) :
    computeMag sort simps b' sp align check = .ok 0 ∧ b' = { b with zpt := b'.zpt } := by
  unfold computeZpt at h
  cases hf : computeFlux sort simps b sp align check with
  | error e => rw [hf] at h; simp at h
  | ok f =>
    rw [hf] at h
    simp only [Except.ok.injEq] at h
    have e : computeFlux sort simps b' sp align check = computeFlux sort simps b sp align check := by
      subst h
      cases sp <;> rfl
    constructor
    · unfold computeMag
      rw [e, hf]
      have : f / b'.zpt = 1 := by
        rw [← h] at hne ⊢
        exact div_self hne
      simp [this, fluxToMag]
    · rw [← h]

/-- With the check, a spectrum that does not cover the band (center plus and minus half the width) raises, and without it never. -/
theorem overlap_checked (sort : Samples → Samples) (simps : Samples → ℝ) (b : BandInfo) (s : Samples) (check : Bool) :
    (computeFlux sort simps b (.spectrum s) (some false) check = .error .value ↔
      check = true ∧ ¬ (b.cen + b.fwhm / 2 ≤ maxOf (s.map Prod.fst) ∧ minOf (s.map Prod.fst) ≤ b.cen - b.fwhm / 2)) := by
  simp only [computeFlux, Option.getD_some, Bool.false_eq_true, if_false, finish]
  have e : List.map Prod.fst (List.map (fun p : ℝ × ℝ => (p.1, interp (sort b.pts) p.1 * p.2)) s) = s.map Prod.fst := by
    rw [List.map_map]; rfl
  split_ifs with h <;> rw [e] at h
  · simp only [true_iff]; exact h
  · simp only [reduceCtorEq, false_iff]; exact h

/-- An array on the band's own positions is integrated without the response of the band: two bands that differ in the response only give the
same flux, whereas for a spectrum with the same samples the response counts. -/
theorem array_ignores_response (sort : Samples → Samples) (simps : Samples → ℝ) (b : BandInfo) (S' : ℝ → ℝ) (y : List ℝ) (align : Option Bool)
    (check : Bool) :
    computeFlux sort simps b (.array y) align check = computeFlux sort simps { b with pts := mapS S' b.pts } (.array y) align check := by
  have e0 : (mapS S' b.pts).map Prod.fst = b.pts.map Prod.fst := positions_mapS _ _
  simp only [computeFlux, e0]
  simp [mapS, Overlapped, finish]

/-- ... and the two disagree already for a band with response 0 (flux 1 instead of 0; `simps` here adds the samples). -/
theorem array_vs_spectrum :
    let b : BandInfo := ⟨[(1, 0)], 1, 0, 1, true⟩
    let simps : Samples → ℝ := fun l => (l.map (·.2)).sum
    computeFlux id simps b (.array [1]) (some true) false = .ok 1 ∧
    computeFlux id simps b (.spectrum [(1, 1)]) (some true) false = .ok 0 := by
  constructor <;> simp [computeFlux, interp, finish]

/-- Without a choice of alignment the grid with more samples per unit of position is left unchanged: the band's if it is finer, otherwise the
spectrum's. -/
theorem finer_grid_kept (sort : Samples → Samples) (simps : Samples → ℝ) (b : BandInfo) (s : Samples) (check : Bool) (rb rs : ℝ)
    (hrb : rb = maxOf (b.pts.map Prod.fst) - minOf (b.pts.map Prod.fst)) (hrs : rs = maxOf (s.map Prod.fst) - minOf (s.map Prod.fst))
    (h1 : 0 < rb) (h2 : 0 < rs) :
    (s.length * rb < b.pts.length * rs →
      computeFlux sort simps b (.spectrum s) none check = computeFlux sort simps b (.spectrum s) (some true) check) ∧
    (b.pts.length * rs ≤ s.length * rb →
      computeFlux sort simps b (.spectrum s) none check = computeFlux sort simps b (.spectrum s) (some false) check) := by
  have key : density (b.pts.map Prod.fst) > density (s.map Prod.fst) ↔ (s.length : ℝ) * rb < b.pts.length * rs := by
    unfold density
    rw [← hrb, ← hrs, List.length_map, List.length_map, gt_iff_lt, div_lt_div_iff₀ h2 h1]
  constructor
  · intro h
    simp only [computeFlux, Option.getD_none, Option.getD_some, decide_eq_true (key.2 h)]
  · intro h
    simp only [computeFlux, Option.getD_none, Option.getD_some, decide_eq_false (fun h' => not_lt.2 h (key.1 h'))]

/-- Its hypotheses are met by a band with three samples and a spectrum with two over the same range. -/
example (sort : Samples → Samples) (simps : Samples → ℝ) :
    computeFlux sort simps ⟨[(1, 0), (2, 1), (3, 0)], 2, 1, 1, true⟩ (.spectrum [(1, 5), (3, 6)]) none false =
      computeFlux sort simps ⟨[(1, 0), (2, 1), (3, 0)], 2, 1, 1, true⟩ (.spectrum [(1, 5), (3, 6)]) (some true) false := by
  refine (finer_grid_kept sort simps _ _ _ 2 2 ?_ ?_ (by norm_num) (by norm_num)).1 ?_ <;> norm_num [maxOf, minOf]

/-- Cases that meet the hypotheses: insertion sort by position, trapezoid-like sum. -/
noncomputable def isort (l : Samples) : Samples :=
  @List.insertionSort _ (fun p q : ℝ × ℝ => p.1 ≤ q.1) (fun _ _ => Classical.propDecidable _) l

theorem isort_spec : SortSpec isort := by
  classical
  constructor
  · intro l; exact List.perm_insertionSort _ _
  · intro l
    haveI : Std.Total (fun p q : ℝ × ℝ => p.1 ≤ q.1) := ⟨fun _ _ => le_total _ _⟩
    haveI : IsTrans (ℝ × ℝ) (fun p q : ℝ × ℝ => p.1 ≤ q.1) := ⟨fun _ _ _ => le_trans⟩
    exact List.pairwise_insertionSort _ _

example : 1 ∈ values (construct isort [(2, 3), (1, 1), (3, 2)] true).pts := by
  have h := band_shape isort isort_spec [(2, 3), (1, 1), (3, 2)] (by simp) true
  refine (h.2.2.2.2.1 ?_ rfl).1
  have hp := isort_spec.perm [(2, 3), (1, 1), (3, 2)]
  set s := isort [(2, 3), (1, 1), (3, 2)] with hs
  have hv : (values s).Perm [3, 1, 2] := hp.map Prod.snd
  have hmin : minOf (values s) = 1 := minOf_unique _ 1 (hv.mem_iff.2 (by simp)) (by
    intro x hx; have := hv.mem_iff.1 hx; simp at this; rcases this with rfl | rfl | rfl <;> norm_num)
  have hoff : offset s = s := by unfold offset; rw [if_neg (by rw [hmin]; norm_num)]
  show maxOf (values (offset s)) ≠ 0
  rw [hoff]
  have hmax : maxOf (values s) = 3 := maxOf_unique _ 3 (hv.mem_iff.2 (by simp)) (by
    intro x hx; have := hv.mem_iff.1 hx; simp at this; rcases this with rfl | rfl | rfl <;> norm_num)
  rw [hmax]; norm_num

end Verif.PhotBand
