import Mathlib.Data.Real.Basic
import Mathlib.Algebra.Order.Floor.Ring
import Mathlib.Data.Int.ModEq
import Mathlib.Data.List.GetD
import Mathlib.Tactic.Linarith
import Mathlib.Tactic.Ring
import Mathlib.Tactic.FieldSimp

/-!
# Flux densities and spectra of observations, simulated images, Gaussian bands (astropysics/phot.py 522-568, 995-1047, 2412-2505) (C187, C188)
-/

namespace Verif.PhotArrays

inductive Err
  | value
  | name
  | attribute
  deriving DecidableEq

/-! ## Flux densities -/

/-- A band: its unit, and center and width in every unit. -/
structure Band where
  unit : String
  cen : String → ℝ
  fwhm : String → ℝ

/-- `getBandInfo`, phot.py 1007-1021: the units of the bands are changed and restored; an unknown unit is ValueError. -/
def bandInfo (known : String → Bool) (unit : String) : List Band → Except Err (List ℝ × List ℝ × List Band)
  | [] => .ok ([], [], [])
  | b :: l => if known unit then
      match bandInfo known unit l with
      | .error e => .error e
      | .ok (x, w, l') =>
        let changed : Band := { b with unit := unit }
        .ok (changed.cen changed.unit :: x, changed.fwhm changed.unit :: w, { changed with unit := b.unit } :: l')
    else .error .value

/-- `np.tile(w,m)`. -/
def tile (w : List ℝ) (m : ℕ) : List ℝ := (List.replicate m w).flatten

/-- Entry (i, j) of an array of n rows and m columns made of a flat one. -/
def entry (flat : List ℝ) (m i j : ℕ) : ℝ := flat.getD (i * m + j) 0

/-- Values of a PhotObservation: one per band, or rows of `m` per band. -/
inductive Values
  | one (f : List ℝ)
  | many (m : ℕ) (f : ℕ → ℕ → ℝ)

/-- `getFluxDensity`, phot.py 995-1005, one of the two arrays (fluxes or errors). -/
noncomputable def density (f : Values) (w : List ℝ) : Values :=
  match f with
  | .one f => .one (List.zipWith (· / ·) f w)
  | .many m f => .many m fun i j => f i j / entry (tile w m) m i j

/-- `toSpectrum`, phot.py 1023-1047: positions of the spectrum, fluxes per width. -/
noncomputable def toSpectrum (y : Values) (x w : List ℝ) : Values × Values :=
  match y with
  | .one y => (.one (tile x 1), .one (List.zipWith (· / ·) y (tile w 1)))
  | .many m y => (.many m fun i j => entry (tile x m) m i j, .many m fun i j => y i j / entry (tile w m) m i j)

theorem tile_get (w : List ℝ) (hw : 0 < w.length) : ∀ (m k : ℕ), k < m * w.length → (tile w m).getD k 0 = w.getD (k % w.length) 0
  | 0, k, h => by omega
  | m + 1, k, h => by
    unfold tile
    rw [List.replicate_succ, List.flatten_cons]
    by_cases hk : k < w.length
    · rw [List.getD_append _ _ _ _ hk, Nat.mod_eq_of_lt hk]
    · have hle : w.length ≤ k := by omega
      rw [List.getD_append_right _ _ _ _ hle]
      have := tile_get w hw m (k - w.length) (by rw [Nat.add_mul] at h; omega)
      unfold tile at this
      rw [this, Nat.mod_eq_sub_mod hle]

/-- C187.  Centers and widths are those of the bands in the unit asked for, and the bands have their units back; an unknown unit is ValueError. -/
theorem info_exact (known : String → Bool) (unit : String) : ∀ bands : List Band,
    (known unit = true → bandInfo known unit bands = .ok (bands.map (·.cen unit), bands.map (·.fwhm unit), bands)) ∧
    (known unit = false → bands ≠ [] → bandInfo known unit bands = .error .value)
  | [] => ⟨fun _ => rfl, fun _ h => absurd rfl h⟩
  | b :: l => by
    constructor
    · intro h
      rw [bandInfo, if_pos h, (info_exact known unit l).1 h]
      rfl
    · intro h _
      rw [bandInfo, if_neg (by simp [h])]

/-- C187.  One value per band: each flux is divided by the width of its band, each position is the center of its band. -/
theorem one_per_band (f x w : List ℝ) : density (.one f) w = .one (List.zipWith (· / ·) f w) ∧ toSpectrum (.one f) x w = (.one x, .one (List.zipWith (· / ·) f w)) := by
  simp [density, toSpectrum, tile]

/-- C187.  Several values per band: entry (i, j) is divided by the width of the band (i m + j) mod n and put at the center of that band. -/
theorem many_per_band (m : ℕ) (f : ℕ → ℕ → ℝ) (x w : List ℝ) (hx : x.length = w.length) (i j : ℕ) (hi : i < w.length) (hj : j < m) :
    (∃ g, density (.many m f) w = .many m g ∧ g i j = f i j / w.getD ((i * m + j) % w.length) 0) ∧
    (∃ p g, toSpectrum (.many m f) x w = (.many m p, .many m g) ∧ p i j = x.getD ((i * m + j) % w.length) 0 ∧ g i j = f i j / w.getD ((i * m + j) % w.length) 0) := by
  have hlt : i * m + j < m * w.length := by
    have : i + 1 ≤ w.length := hi
    calc i * m + j < i * m + m := by omega
      _ = m * (i + 1) := by ring
      _ ≤ m * w.length := Nat.mul_le_mul_left _ this
  have hw : entry (tile w m) m i j = w.getD ((i * m + j) % w.length) 0 := tile_get w (by omega) m _ hlt
  have hxx : entry (tile x m) m i j = x.getD ((i * m + j) % w.length) 0 := by
    rw [← hx]; exact tile_get x (by omega) m _ (by rw [hx]; exact hlt)
  refine ⟨⟨_, rfl, ?_⟩, ⟨_, _, rfl, ?_, ?_⟩⟩
  · show f i j / entry (tile w m) m i j = _
    rw [hw]
  · exact hxx
  · show f i j / entry (tile w m) m i j = _
    rw [hw]

/-- C187.  Defect: these are the bands of the values for every entry exactly if there is only one band or only one value per band. -/
theorem tile_right_iff (n m : ℕ) (hn : 0 < n) (hm : 0 < m) : (∀ i j, i < n → j < m → (i * m + j) % n = i) ↔ n = 1 ∨ m = 1 := by
  constructor
  · intro h
    by_contra hc
    push Not at hc
    have h1 := h 0 1 hn (by omega)
    simp only [Nat.zero_mul, Nat.zero_add] at h1
    rw [Nat.mod_eq_of_lt (by omega)] at h1
    omega
  · rintro (rfl | rfl) i j hi hj
    · omega
    · have : j = 0 := by omega
      subst this
      simp [Nat.mod_eq_of_lt hi]

/-- C187.  The second value of the first of two bands is divided by the width of the second band. -/
theorem tile_wrong : ∃ g, density (.many 2 fun _ _ => 1) [1, 2] = .many 2 g ∧ g 0 1 = 1 / 2 ∧ g 1 0 = 1 := by
  refine ⟨_, rfl, ?_, ?_⟩ <;> simp [entry, tile]

/-! ## Simulated images -/

/-- A number of Python 2: an int or a float. -/
inductive Num
  | int (n : ℤ)
  | flt (x : ℝ)

noncomputable def Num.val : Num → ℝ
  | .int n => n
  | .flt x => x

/-- `n*scale` for a number of pixels. -/
noncomputable def times (n : ℕ) : Num → Num
  | .int k => .int (n * k)
  | .flt x => .flt (n * x)

/-- `-x/2` and `x/2` (phot.py 2468): true division for ints as well, by `from __future__ import division` (44). -/
noncomputable def halves (x : Num) : ℝ × ℝ := (-x.val / 2, x.val / 2)

inductive Pixels
  | one (n : ℕ)
  | seq (l : List ℕ)
  | array (nx ny : ℕ)

inductive Scale
  | one (s : Num)
  | two (sx sy : Num)

/-- The image and what happens to it; `I` are images. -/
structure World (I : Type) where
  pixelize : ℝ → ℝ → ℝ → ℝ → ℕ → ℕ → I
  /-- `gaussian_filter` with the two sigmas in pixels. -/
  blur : ℝ → ℝ → I → I
  add : I → ℝ → I
  addList : I → List (List ℝ) → I
  poisson : I → I
  normal : I → ℝ → I
  normalList : I → List (List ℝ) → I
  sigtofwhm : ℝ

inductive Psf
  | none
  | one (fwhm : ℝ)
  | two (fx fy : ℝ)
  /-- a measured one as nested lists -/
  | lists (l : List (List ℝ))
  /-- a numpy array of more than one entry: its truth value is a ValueError -/
  | array

inductive Background
  | one (b : ℝ)
  | lists (l : List (List ℝ))
  | array

inductive Noise (I : Type)
  | none
  | poisson
  | one (s : ℝ)
  | lists (l : List (List ℝ))
  | array
  | fn (f : I → I)

/-- Number of pixels, phot.py 2452-2461. -/
def npix : Pixels → Except Err (ℕ × ℕ)
  | .one n => .ok (n, n)
  | .seq [nx, ny] => .ok (nx, ny)
  | .seq _ => .error .value
  | .array nx ny => .ok (nx, ny)

def scales : Scale → Num × Num
  | .one s => (s, s)
  | .two sx sy => (sx, sy)

/-- The psf, phot.py 2473-2493: for a measured one `normpsf` is used where `normpdf` was defined. -/
noncomputable def applyPsf {I : Type} (W : World I) (sx sy : ℝ) (im : I) : Psf → Except Err I
  | .none => .ok im
  | .one f => if f = 0 then .ok im else .ok (W.blur (f / sx / W.sigtofwhm) (f / sy / W.sigtofwhm) im)
  | .two fx fy => .ok (W.blur (fx / sx / W.sigtofwhm) (fy / sy / W.sigtofwhm) im)
  | .lists [] => .ok im
  | .lists _ => .error .name
  | .array => .error .value

/-- The background, phot.py 2495-2496. -/
noncomputable def applyBackground {I : Type} (W : World I) (im : I) : Background → Except Err I
  | .one b => if b = 0 then .ok im else .ok (W.add im b)
  | .lists [] => .ok im
  | .lists l => .ok (W.addList im l)
  | .array => .error .value

/-- The noise, phot.py 2498-2504. -/
noncomputable def applyNoise {I : Type} (W : World I) (im : I) : Noise I → Except Err I
  | .none => .ok im
  | .poisson => .ok (W.poisson im)
  | .one s => if s = 0 then .ok im else .ok (W.normal im s)
  | .lists [] => .ok im
  | .lists l => .ok (W.normalList im l)
  | .array => .error .value
  | .fn f => .ok (f im)

/-- `simulate`, phot.py 2412-2505. -/
noncomputable def simulate {I : Type} (W : World I) (pixels : Pixels) (scale : Scale) (bg : Background) (noise : Noise I) (psf : Psf) : Except Err I :=
  match npix pixels with
  | .error e => .error e
  | .ok (nx, ny) =>
    let sx := (scales scale).1
    let sy := (scales scale).2
    let im := W.pixelize (halves (times nx sx)).1 (halves (times nx sx)).2 (halves (times ny sy)).1 (halves (times ny sy)).2 nx ny
    match applyPsf W sx.val sy.val im psf with
    | .error e => .error e
    | .ok im => match applyBackground W im bg with
      | .error e => .error e
      | .ok im => applyNoise W im noise

/-- C188.  The image is that of the model on nx by ny pixels of this scale around the centre, blurred with a Gaussian of the full width asked
for (in pixels of each axis), the background added, then the noise. -/
theorem simulate_exact {I : Type} (W : World I) (nx ny : ℕ) (sx sy fx fy b s : ℝ) (hb : b ≠ 0) (hs : s ≠ 0) :
    simulate W (.seq [nx, ny]) (.two (.flt sx) (.flt sy)) (.one b) (.one s) (.two fx fy) =
      .ok (W.normal (W.add (W.blur (fx / sx / W.sigtofwhm) (fy / sy / W.sigtofwhm) (W.pixelize (-(nx * sx) / 2) (nx * sx / 2) (-(ny * sy) / 2) (ny * sy / 2) nx ny)) b) s) ∧
    simulate W (.one nx) (.one (.flt sx)) (.one 0) .none .none = .ok (W.pixelize (-(nx * sx) / 2) (nx * sx / 2) (-(nx * sx) / 2) (nx * sx / 2) nx nx) ∧
    simulate W (.array nx ny) (.one (.flt sx)) (.one 0) .poisson .none = .ok (W.poisson (W.pixelize (-(nx * sx) / 2) (nx * sx / 2) (-(ny * sx) / 2) (ny * sx / 2) nx ny)) ∧
    (∀ f : I → I, simulate W (.one nx) (.one (.flt sx)) (.one b) (.fn f) (.one 0) = .ok (f (W.add (W.pixelize (-(nx * sx) / 2) (nx * sx / 2) (-(nx * sx) / 2) (nx * sx / 2) nx nx) b))) := by
  simp [simulate, npix, scales, applyPsf, applyBackground, applyNoise, halves, times, Num.val, hb, hs]

/-- C188.  A scalar psf has the same width on both axes; nested lists of background and sigmas are used. -/
theorem simulate_lists {I : Type} (W : World I) (nx : ℕ) (sx sy f : ℝ) (hf : f ≠ 0) (r : List ℝ) (l : List (List ℝ)) (r' : List ℝ) (l' : List (List ℝ)) :
    simulate W (.one nx) (.two (.flt sx) (.flt sy)) (.lists (r :: l)) (.lists (r' :: l')) (.one f) =
      .ok (W.normalList (W.addList (W.blur (f / sx / W.sigtofwhm) (f / sy / W.sigtofwhm) (W.pixelize (-(nx * sx) / 2) (nx * sx / 2) (-(nx * sy) / 2) (nx * sy / 2) nx nx)) (r :: l)) (r' :: l')) := by
  simp [simulate, npix, scales, applyPsf, applyBackground, applyNoise, halves, times, Num.val, hf]

/-- C188.  Integer scales give the same image as the floats of the same value, in every call. -/
theorem int_scale_as_float {I : Type} (W : World I) (pixels : Pixels) (bg : Background) (noise : Noise I) (psf : Psf) (k l : ℤ) :
    simulate W pixels (.two (.int k) (.int l)) bg noise psf = simulate W pixels (.two (.flt k) (.flt l)) bg noise psf ∧
    simulate W pixels (.one (.int k)) bg noise psf = simulate W pixels (.one (.flt k)) bg noise psf := by
  have h : ∀ (n : ℕ) (k : ℤ), halves (times n (.int k)) = halves (times n (.flt k)) := by
    intro n k; simp [halves, times, Num.val]
  constructor <;> simp only [simulate, scales, h] <;> rfl

/-- C188.  Defect: a measured psf always fails (NameError as nested lists, ValueError as an array); background or noise as arrays are ValueError. -/
theorem arrays_fail {I : Type} (W : World I) (pixels : Pixels) (scale : Scale) (bg : Background) (noise : Noise I) (psf : Psf) (nx ny : ℕ) (hp : npix pixels = .ok (nx, ny))
    (r : List ℝ) (l : List (List ℝ)) :
    simulate W pixels scale bg noise (.lists (r :: l)) = .error .name ∧ simulate W pixels scale bg noise .array = .error .value ∧
    (psf = .none → simulate W pixels scale .array noise psf = .error .value) ∧ (psf = .none → bg = .one 0 → simulate W pixels scale bg .array psf = .error .value) := by
  refine ⟨?_, ?_, ?_, ?_⟩
  · simp [simulate, hp, applyPsf]
  · simp [simulate, hp, applyPsf]
  · rintro rfl; simp [simulate, hp, applyPsf, applyBackground]
  · rintro rfl rfl; simp [simulate, hp, applyPsf, applyBackground, applyNoise]

/-- C188.  A sequence of pixels of another length than two is ValueError. -/
theorem bad_pixels {I : Type} (W : World I) (q : List ℕ) (scale : Scale) (bg : Background) (noise : Noise I) (psf : Psf) (h : q.length ≠ 2) :
    simulate W (.seq q) scale bg noise psf = .error .value := by
  match q, h with
  | [], _ => rfl
  | [_], _ => rfl
  | [_, _], h => exact absurd rfl h
  | _ :: _ :: _ :: _, _ => rfl

/-! ## Gaussian bands -/

/-- The attributes of a GaussianBand that `_updateXY` uses. -/
structure Gauss where
  cen : ℝ
  sigma : ℝ
  unittrans : Option ((ℝ → ℝ) × (ℝ → ℝ))
  x : Option (List ℝ)

/-- `_updateXY`, phot.py 546-553: the transformation of units and the positions must be there (and three functions are taken out of the pair). -/
def updateXY (g : Gauss) : Except Err Gauss :=
  match g.unittrans with
  | none => .error .attribute
  | some _ => .error .value

/-- The constructor, phot.py 523-540, up to the first update; the transformation is set later. -/
def gaussianBand (center sigma : ℝ) : Except Err Gauss := updateXY ⟨center, sigma, none, none⟩

/-- Defect: no Gaussian band can be made. -/
theorem gaussian_never (center sigma : ℝ) : gaussianBand center sigma = .error .attribute ∧ ∀ g, ∃ e, updateXY g = .error e := by
  refine ⟨rfl, fun g => ?_⟩
  unfold updateXY
  cases g.unittrans
  · exact ⟨_, rfl⟩
  · exact ⟨_, rfl⟩

end Verif.PhotArrays
