import Verif.CcdImageProps
import Mathlib.Algebra.BigOperators.Group.List.Basic
import Mathlib.Algebra.Order.BigOperators.Group.List

/-!
# Reduction of CCD images (astropysics/ccd.py 67-193, 1298-1672) (C106, C107, C108)
-/

namespace Verif.Ccd

/-! ## Noise models -/

/-- Mean and variance of a random number.  `numpy.random` is trusted: poisson(l) has mean and variance l, normal(m,s) has mean m and variance s^2,
uniform(a,b) has mean (a+b)/2 and variance (b-a)^2/12, independent draws add. -/
structure Law where
  mean : ℝ
  var : ℝ

def poisson (l : ℝ) : Law := ⟨l, l⟩
def normal (m s : ℝ) : Law := ⟨m, s ^ 2⟩
noncomputable def uniform (a b : ℝ) : Law := ⟨(a + b) / 2, (b - a) ^ 2 / 12⟩
def Law.plus (a b : Law) : Law := ⟨a.mean + b.mean, a.var + b.var⟩
def fixed (x : ℝ) : Law := ⟨x, 0⟩

inductive Noise where
  | poisson
  | gaussian (sigma : ℝ)
  | uniform (lower upper : ℝ) (frac : Bool)
  | ccd (gain readnoise snoise : ℝ)

/-- `var(data)`, ccd.py 122-123, 132-133, 150-151, 188-192. -/
noncomputable def Noise.var : Noise → ℝ → ℝ
  | .poisson, x => x
  | .gaussian s, _ => s ^ 2
  | .uniform l u _, _ => (u - l) ^ 2 / 12
  | .ccd g rn sn, x => rn / g * (rn / g) + x / g + sn * x * (sn * x)

/-- `_dataPlusNoise(data)` of a pixel, ccd.py 119-120, 129-130, 142-148, 175-186. -/
noncomputable def Noise.draw : Noise → ℝ → Law
  | .poisson, x => Ccd.poisson x
  | .gaussian s, x => normal x (((Noise.gaussian s).var x) ^ (1 / 2 : ℝ))
  | .uniform l u frac, x => (fixed x).plus (if frac then Ccd.uniform (x * l) (x * u) else Ccd.uniform l u)
  | .ccd g rn sn, x =>
    let es := x / g
    let gvar := (Noise.ccd g rn sn).var x - es
    (Ccd.poisson es).plus (if gvar ≤ 0 then fixed 0 else normal 0 (gvar ^ (1 / 2 : ℝ)))

/-- `__call__` after the draw: ceiling first, then floor, ccd.py 92-97. -/
noncomputable def limited (floor ceiling : Option ℝ) (x : ℝ) : ℝ :=
  let y := match ceiling with
    | some c => if x > c then c else x
    | none => x
  match floor with
  | some f => if y < f then f else y
  | none => y

/-- `std` and `SNR`, ccd.py 113-117. -/
noncomputable def Noise.std (n : Noise) (x : ℝ) : ℝ := n.var x ^ (1 / 2 : ℝ)
noncomputable def Noise.snr (n : Noise) (x : ℝ) : ℝ := x / n.std x

/-- Noisy values respect floor and ceiling (if they do not contradict each other), and values between them are kept. -/
theorem limited_between (floor ceiling : Option ℝ) (x : ℝ) (h : ∀ f c, floor = some f → ceiling = some c → f ≤ c) :
    (∀ f, floor = some f → f ≤ limited floor ceiling x) ∧ (∀ c, ceiling = some c → limited floor ceiling x ≤ c) ∧
    ((∀ f, floor = some f → f ≤ x) → (∀ c, ceiling = some c → x ≤ c) → limited floor ceiling x = x) := by
  refine ⟨fun f hf => ?_, fun c hc => ?_, fun h1 h2 => ?_⟩
  · subst hf
    simp only [limited]
    split_ifs <;> linarith
  · subst hc
    cases floor with
    | none =>
      simp only [limited]
      split_ifs <;> linarith
    | some f =>
      have := h f c rfl rfl
      simp only [limited]
      split_ifs <;> linarith
  · cases floor with
    | none =>
      cases ceiling with
      | none => rfl
      | some c =>
        have := h2 c rfl
        simp only [limited]
        rw [if_neg (by linarith)]
    | some f =>
      have hf := h1 f rfl
      cases ceiling with
      | none => simp only [limited]; rw [if_neg (by linarith)]
      | some c =>
        have := h2 c rfl
        simp only [limited]
        rw [if_neg (not_lt.2 this : ¬ x > c), if_neg (by linarith)]

/-- A model is faithful at a value if its noise has mean zero and the variance it reports. -/
def Faithful (n : Noise) (x : ℝ) : Prop := (n.draw x).mean = x ∧ (n.draw x).var = n.var x

theorem half_sq (x : ℝ) (hx : 0 ≤ x) : (x ^ (1 / 2 : ℝ)) ^ 2 = x := by
  rw [← Real.rpow_natCast, ← Real.rpow_mul hx]; norm_num

/-- Poisson and Gaussian noise are faithful everywhere. -/
theorem poisson_faithful (x : ℝ) : Faithful .poisson x := ⟨rfl, rfl⟩
theorem gaussian_faithful (s x : ℝ) : Faithful (.gaussian s) x := ⟨rfl, half_sq _ (sq_nonneg s)⟩

/-- Uniform noise is faithful exactly if its limits are symmetric (or, as a fraction, the value is 0) and, as a fraction, the value is 1 in size
(or the limits coincide): `var` ignores `frac`. -/
theorem uniform_faithful (l u x : ℝ) (frac : Bool) :
    Faithful (.uniform l u frac) x ↔ (l + u = 0 ∨ frac = true ∧ x = 0) ∧ (frac = false ∨ x ^ 2 = 1 ∨ l = u) := by
  unfold Faithful
  cases frac with
  | false =>
    simp only [Noise.draw, Law.plus, fixed, Bool.false_eq_true, if_false, uniform, Noise.var, zero_add, true_or, and_true, false_and, or_false]
    constructor
    · intro h; linarith
    · intro h; rw [h]; ring
  | true =>
    simp only [Noise.draw, Law.plus, fixed, if_true, uniform, Noise.var, zero_add, Bool.true_eq_false, false_or, true_and]
    have e1 : (x + (x * l + x * u) / 2 = x) ↔ (l + u = 0 ∨ x = 0) := by
      constructor
      · intro h
        have : x * (l + u) = 0 := by linarith
        rcases mul_eq_zero.1 this with h | h
        · exact Or.inr h
        · exact Or.inl h
      · rintro (h | h)
        · have : x * l + x * u = 0 := by rw [← mul_add, h, mul_zero]
          rw [this]; ring
        · rw [h]; ring
    have e2 : ((x * u - x * l) ^ 2 / 12 = (u - l) ^ 2 / 12) ↔ (x ^ 2 = 1 ∨ l = u) := by
      constructor
      · intro h
        have : (x ^ 2 - 1) * (u - l) ^ 2 = 0 := by
          have h' : (x * u - x * l) ^ 2 = (u - l) ^ 2 := by linarith
          linear_combination h'
        rcases mul_eq_zero.1 this with h | h
        · exact Or.inl (by linarith)
        · right
          have := pow_eq_zero_iff (two_ne_zero) |>.1 h
          linarith
      · rintro (h | h)
        · congr 1; linear_combination (u - l) ^ 2 * h
        · rw [h]; ring
    rw [e1, e2]

/-- CCD noise: with a gain in electrons per ADU the reported variance is that of the draw (data not negative), but the mean of the draw is
data/gain: the noisy image is faithful only for gain 1 (or no signal). -/
theorem ccd_noise (g rn sn x : ℝ) (hg : 0 < g) :
    ((Noise.ccd g rn sn).draw x).var = (Noise.ccd g rn sn).var x ∧ ((Noise.ccd g rn sn).draw x).mean = x / g ∧
    (Faithful (.ccd g rn sn) x ↔ g = 1 ∨ x = 0) := by
  have hv : ((Noise.ccd g rn sn).draw x).var = (Noise.ccd g rn sn).var x := by
    simp only [Noise.draw, Law.plus, poisson]
    split_ifs with h
    · simp only [fixed, Noise.var] at h ⊢
      have : 0 ≤ rn / g * (rn / g) + sn * x * (sn * x) := add_nonneg (mul_self_nonneg _) (mul_self_nonneg _)
      linarith
    · simp only [normal]
      rw [half_sq _ (by linarith)]; ring
  have hm : ((Noise.ccd g rn sn).draw x).mean = x / g := by
    simp only [Noise.draw, Law.plus, poisson]
    split_ifs <;> simp [fixed, normal]
  refine ⟨hv, hm, ?_⟩
  unfold Faithful
  rw [hv, hm]
  simp only [and_true]
  rw [div_eq_iff hg.ne']
  constructor
  · intro h
    have : x * (g - 1) = 0 := by linarith
    rcases mul_eq_zero.1 this with h | h
    · exact Or.inr h
    · exact Or.inl (by linarith)
  · rintro (h | h)
    · rw [h, mul_one]
    · rw [h, zero_mul]

/-- `std` is the root of `var`, and the signal-to-noise ratio of Poisson noise is the root of the signal. -/
theorem snr_poisson (x : ℝ) (hx : 0 < x) : (Noise.poisson.snr x) ^ 2 = x ∧ ∀ n : Noise, 0 ≤ n.var x → (n.std x) ^ 2 = n.var x := by
  refine ⟨?_, fun n hn => half_sq _ hn⟩
  unfold Noise.snr Noise.std
  simp only [Noise.var]
  rw [div_pow, half_sq _ hx.le]
  field_simp

example : Faithful (.uniform (-1) 1 false) 7 ∧ ¬ Faithful (.uniform (-1) 1 true) 7 ∧ ¬ Faithful (.ccd 2 5 0) 100 := by
  refine ⟨(uniform_faithful _ _ _ _).2 (by norm_num), fun h => ?_, fun h => ?_⟩
  · have := (uniform_faithful _ _ _ _).1 h; norm_num at this
  · have := (ccd_noise 2 5 0 100 (by norm_num)).2.2.1 h; norm_num at this

/-! ## Bias subtraction -/

/-- `combinemethod`: one of the names (a reduction of pixels), a callable (which reduces whole images to a number or to a row) or something else. -/
inductive Combine where
  | stat (f : List ℝ → ℝ)
  | callable (f : Arr → ℝ) (g : Arr → ℕ → ℝ)
  | invalid

inductive Axis where
  | x | y | other
deriving DecidableEq

structure Bias where
  frame : Option Arr
  region : Option Rng
  overscan : Option (ℤ × Bool)
  axis : Axis
  combine : Combine
  trim : Bool

def Arr.T (a : Arr) : Arr := ⟨a.ny, a.nx, fun i j => a.px j i⟩

/-- The part `image[edge:]` (from) or `image[:edge]` along the first axis. -/
def Arr.from_ (a : Arr) (e : ℤ) : Arr := a.slice ⟨e, a.nx, 0, a.ny⟩
def Arr.upto (a : Arr) (e : ℤ) : Arr := a.slice ⟨0, e, 0, a.ny⟩

/-- A column of an array. -/
def Arr.column (a : Arr) (j : ℕ) : List ℝ := (List.range a.nx).map fun i => a.px i j

/-- Subtracting the frame, ccd.py 1356-1357 (frames of another shape are rejected by numpy, up to broadcasting, which is not modelled). -/
def subFrame (frame : Option Arr) (im : Arr) : Except Err Arr :=
  match frame with
  | none => .ok im
  | some f => if f.nx = im.nx ∧ f.ny = im.ny then .ok ⟨im.nx, im.ny, fun i j => im.px i j - f.px i j⟩ else .error .value

/-- Subtracting the level of the bias region, ccd.py 1359-1379: a callable is given the whole image. -/
noncomputable def subRegion (c : Combine) (region : Option Rng) (im : Arr) : Except Err Arr :=
  match region with
  | none => .ok im
  | some r =>
    match c with
    | .stat f => .ok (im.map fun x => x - f (im.slice r).pixels)
    | .callable f _ => .ok (im.map fun x => x - f im)
    | .invalid => .error .value

/-- The overscan part that is averaged, ccd.py 1399-1402. -/
def overscanPart (im : Arr) (edge : ℤ) (left : Bool) : Arr := if left then im.from_ edge else im.upto edge

/-- Subtracting the overscan, ccd.py 1381-1436 (without `overscanfit`). -/
noncomputable def subOverscan (c : Combine) (axis : Axis) (trim : Bool) (edge : ℤ) (left : Bool) (im : Arr) : Except Err Arr :=
  let go (im : Arr) : Except Err Arr :=
    let part := overscanPart im edge left
    let cut (curve : ℕ → ℝ) : Arr :=
      let res : Arr := ⟨im.nx, im.ny, fun i j => im.px i j - curve j⟩
      if trim then overscanPart res edge left else res
    match c with
    | .stat f => .ok (cut fun j => f (part.column j))
    | .callable _ g => .ok (cut (g part))
    | .invalid => .error .value
  match axis with
  | .x => go im
  | .y => go im.T
  | .other => .error .value

/-- `subtractFromImage(image)`, ccd.py 1343-1447: at the end the image is transposed if `overscanaxis` is y, also when there was no overscan. -/
noncomputable def Bias.subtract (b : Bias) (im : Arr) : Except Err Arr :=
  match subFrame b.frame im with
  | .error e => .error e
  | .ok im1 =>
    match subRegion b.combine b.region im1 with
    | .error e => .error e
    | .ok im2 =>
      match (match b.overscan with
        | none => .ok im2
        | some (e, l) => subOverscan b.combine b.axis b.trim e l im2 : Except Err Arr) with
      | .error e => .error e
      | .ok im3 => .ok (if b.axis = .y then im3.T else im3)

/-- The mean of numpy. -/
noncomputable def mean (l : List ℝ) : ℝ := l.sum / l.length

theorem sum_sub_const (l : List ℝ) (c : ℝ) : (l.map fun x => x - c).sum = l.sum - l.length * c := by
  induction l with
  | nil => simp
  | cons x l ih => simp only [List.map_cons, List.sum_cons, ih, List.length_cons]; push_cast; ring

theorem mean_sub (l : List ℝ) (c : ℝ) (h : l ≠ []) : mean (l.map fun x => x - c) = mean l - c := by
  unfold mean
  rw [sum_sub_const, List.length_map]
  have : (l.length : ℝ) ≠ 0 := by simpa using h
  field_simp

/-- A pixel of the frame to be subtracted. -/
def frameAt : Option Arr → ℕ → ℕ → ℝ
  | none, _, _ => 0
  | some f, i, j => f.px i j

/-- Without an overscan on the y axis: the result is image minus frame minus the level of the bias region; with 'mean' the region then has mean 0. -/
theorem bias_frame_region (frame : Option Arr) (r : Rng) (trim : Bool) (axis : Axis) (hax : axis ≠ .y) (im out : Arr)
    (h : (Bias.mk frame (some r) none axis (.stat mean) trim).subtract im = .ok out) :
    out.nx = im.nx ∧ out.ny = im.ny ∧
    (∃ level, ∀ i j, out.px i j = im.px i j - frameAt frame i j - level) ∧
    ((out.slice r).pixels ≠ [] → mean (out.slice r).pixels = 0) := by
  unfold Bias.subtract at h
  simp only at h
  cases hf : subFrame frame im with
  | error e => simp [hf] at h
  | ok im1 =>
    simp only [hf, subRegion, if_neg hax, Except.ok.injEq] at h
    have hs : im1.nx = im.nx ∧ im1.ny = im.ny ∧ ∀ i j, im1.px i j = im.px i j - frameAt frame i j := by
      unfold subFrame at hf
      cases frame with
      | none => simp only [Except.ok.injEq] at hf; rw [← hf]; simp [frameAt]
      | some f =>
        simp only at hf
        split at hf
        · simp only [Except.ok.injEq] at hf; rw [← hf]; simp [frameAt]
        · simp at hf
    subst h
    refine ⟨hs.1, hs.2.1, ⟨mean (im1.slice r).pixels, fun i j => by simp only [Arr.map, hs.2.2]⟩, fun hne => ?_⟩
    have e : ((im1.map fun x => x - mean (im1.slice r).pixels).slice r).pixels = (im1.slice r).pixels.map (fun x => x - mean (im1.slice r).pixels) := by
      simp only [Arr.pixels, Arr.slice, Arr.map, List.map_flatMap, List.map_map, Function.comp_def]
    rw [e] at hne ⊢
    rw [mean_sub _ _ (by intro h; rw [h] at hne; exact hne rfl)]
    ring

/-- A callable `combinemethod` is given the whole image, not the bias region: the result does not depend on the region. -/
theorem bias_callable_ignores_region (frame : Option Arr) (r r' : Rng) (o : Option (ℤ × Bool)) (axis : Axis) (f g) (trim : Bool) (im : Arr) :
    (Bias.mk frame (some r) o axis (.callable f g) trim).subtract im = (Bias.mk frame (some r') o axis (.callable f g) trim).subtract im := rfl

/-- Overscan with trimming: the rows that are averaged are exactly the rows that are kept, so with 'mean' every column of the result has mean
zero, whatever was on the image and in the overscan: the signal is subtracted from itself. -/
theorem overscan_subtracts_signal (frame : Option Arr) (region : Option Rng) (edge : ℤ) (left : Bool) (im out : Arr)
    (h : (Bias.mk frame region (some (edge, left)) .x (.stat mean) true).subtract im = .ok out) (j : ℕ) : mean (out.column j) = 0 := by
  unfold Bias.subtract at h
  simp only at h
  cases hf : subFrame frame im with
  | error e => simp [hf] at h
  | ok im1 =>
    simp only [hf] at h
    cases hr : subRegion (.stat mean) region im1 with
    | error e => simp [hr] at h
    | ok im2 =>
      simp only [hr, subOverscan, if_true, reduceCtorEq, if_false, Except.ok.injEq] at h
      subst h
      by_cases hc : (overscanPart im2 edge left).column j = []
      · have : (overscanPart ⟨im2.nx, im2.ny, fun i j => im2.px i j - mean ((overscanPart im2 edge left).column j)⟩ edge left).column j = [] := by
          simp only [Arr.column, List.map_eq_nil_iff, List.range_eq_nil] at hc ⊢
          rw [← hc]
          cases left <;> rfl
        rw [this]; simp [mean]
      · have e : (overscanPart ⟨im2.nx, im2.ny, fun i j => im2.px i j - mean ((overscanPart im2 edge left).column j)⟩ edge left).column j
            = ((overscanPart im2 edge left).column j).map (fun x => x - mean ((overscanPart im2 edge left).column j)) := by
          cases left <;> simp [Arr.column, overscanPart, Arr.from_, Arr.upto, Arr.slice, List.map_map, Function.comp_def, Rng.y0, bound]
        rw [e, mean_sub _ _ hc]; ring

/-- What is kept when trimming: with the overscan on the left the rows from `edge` on, otherwise those before it, each minus one level per column. -/
theorem overscan_kept (f : List ℝ → ℝ) (im out : Arr) (edge : ℕ) (left : Bool) (he : edge ≤ im.nx)
    (h : (Bias.mk none none (some ((edge : ℤ), left)) .x (.stat f) true).subtract im = .ok out) :
    ∃ level : ℕ → ℝ, out.nx = (if left then im.nx - edge else edge) ∧ out.ny = im.ny ∧
      ∀ i j, out.px i j = im.px (if left then i + edge else i) j - level j := by
  simp only [Bias.subtract, subFrame, subRegion, subOverscan, if_true, reduceCtorEq, if_false, Except.ok.injEq] at h
  subst h
  refine ⟨fun j => f ((overscanPart im edge left).column j), ?_⟩
  have h1 : ¬ ((edge : ℤ) < 0) := by omega
  have h2 : ¬ ((im.nx : ℤ) < 0) := by omega
  cases left <;> simp [overscanPart, Arr.from_, Arr.upto, Arr.slice, Rng.x0, Rng.x1, Rng.y0, Rng.y1, bound, h1, h2, he, add_comm]

/-- Without an overscan but with `overscanaxis` y the image is returned transposed. -/
theorem yaxis_transposes (im : Arr) (c : Combine) (trim : Bool) : (Bias.mk none none none .y c trim).subtract im = .ok im.T := rfl

/-- Nothing set: the image itself; an unknown method or axis is reported only if it is needed. -/
theorem bias_nothing (im : Arr) (c : Combine) (trim : Bool) :
    (Bias.mk none none none .x c trim).subtract im = .ok im ∧ (Bias.mk none none none .other .invalid trim).subtract im = .ok im ∧
    (∀ r o a, (Bias.mk none (some r) o a .invalid trim).subtract im = .error .value) ∧
    (∀ o a, a = .other → (Bias.mk none none (some o) a c trim).subtract im = .error .value) := by
  refine ⟨rfl, rfl, fun r o a => rfl, fun o a h => by subst h; rfl⟩

/-- Example: a 3x1 image whose first pixel is overscan at 100 and whose signal is 110, 130: the result is -10, 10. -/
example : ∃ out, (Bias.mk none none (some (1, true)) .x (.stat mean) true).subtract ⟨3, 1, fun i _ => if i = 0 then 100 else if i = 1 then 110 else 130⟩
    = .ok out ∧ out.nx = 2 ∧ out.px 0 0 = -10 ∧ out.px 1 0 = 10 := by
  refine ⟨_, rfl, rfl, ?_, ?_⟩ <;>
    simp [overscanPart, Arr.from_, Arr.upto, Arr.slice, Rng.x0, Rng.x1, Rng.y0, bound, mean, Arr.column, List.range_succ] <;> norm_num

/-! ## Combining -/

/-- `method`: a named reduction, a callable on the stack at each pixel, or weights. -/
inductive Method where
  | stat (f : List ℝ → ℝ)
  | weights (w : List ℝ)

/-- Is a value of a stack rejected, ccd.py 1586-1589 (only above the mean)? -/
noncomputable def rejected (k : ℝ) (std : List ℝ → ℝ) (l : List ℝ) (v : ℝ) : Bool := decide ((v - mean l) / std l > k)

/-- A combined pixel, ccd.py 1563-1594: the unmasked values are reduced; the weights see the unmasked data (`np.array` drops the mask).  The number
of weights is that of the images or numpy raises ValueError (one weight or one image broadcast). -/
noncomputable def combinePixel (m : Method) (sigclip : Option ℝ) (std : List ℝ → ℝ) (l : List ℝ) : Except Err ℝ :=
  match m with
  | .stat f => match sigclip with
    | none => .ok (f l)
    | some k => .ok (f (l.filter fun v => !rejected k std l v))
  | .weights w =>
    if w.length = l.length then .ok ((List.zipWith (fun a b => a * b) l w).sum)
    else if w.length = 1 then .ok (l.map fun v => v * w.headD 0).sum
    else if l.length = 1 then .ok (w.map fun x => l.headD 0 * x).sum
    else .error .value

/-- Standard deviation of numpy (population). -/
noncomputable def sdev (l : List ℝ) : ℝ := √((l.map fun v => (v - mean l) ^ 2).sum / l.length)

/-- Values at most sigclip standard deviations above the mean are kept, those above are rejected; nothing is ever rejected on the low side. -/
theorem sigclip_keeps (f : List ℝ → ℝ) (k : ℝ) (hk : 0 ≤ k) (l : List ℝ) :
    ∃ kept, combinePixel (.stat f) (some k) sdev l = .ok (f kept) ∧ kept.Sublist l ∧
      ∀ v ∈ l, v ∈ kept ↔ v - mean l ≤ k * sdev l ∨ sdev l = 0 := by
  refine ⟨_, rfl, List.filter_sublist, fun v hv => ?_⟩
  simp only [List.mem_filter, hv, true_and, rejected, Bool.not_eq_true', decide_eq_false_iff_not, not_lt, gt_iff_lt]
  by_cases hs : sdev l = 0
  · simp [hs, hk]
  · have hp : 0 < sdev l := lt_of_le_of_ne (Real.sqrt_nonneg _) (Ne.symm hs)
    rw [div_le_iff₀ hp]
    simp [hs]

/-- A low outlier is kept however far away it is: five images at 100, 100, 100, 100 and -1000 with sigclip 1 give the mean -120. -/
theorem sigclip_low_counterexample :
    combinePixel (.stat mean) (some 1) sdev [100, 100, 100, 100, -1000] = .ok (-120) ∧ (1 * sdev [100, 100, 100, 100, -1000] < |(-1000) - mean [100, 100, 100, 100, -1000]|) := by
  have hm : mean [100, 100, 100, 100, -1000] = -120 := by simp [mean]; norm_num
  have hs : sdev [100, 100, 100, 100, -1000] = 440 := by
    unfold sdev
    rw [hm]
    simp only [List.map_cons, List.map_nil, List.sum_cons, List.sum_nil, List.length_cons, List.length_nil]
    rw [Real.sqrt_eq_iff_eq_sq] <;> norm_num
  constructor
  · simp only [combinePixel, rejected, hs, hm]
    norm_num [List.filter]
    exact hm
  · rw [hs, hm]; norm_num [abs_of_neg]

theorem sq_sum_le (l : List ℝ) : l.sum ^ 2 ≤ l.length * (l.map fun x => x ^ 2).sum := by
  induction l with
  | nil => simp
  | cons x l ih =>
    simp only [List.sum_cons, List.length_cons, List.map_cons]
    push_cast
    have hq : 0 ≤ (l.map fun y => (y - x) ^ 2).sum := List.sum_nonneg (by
      intro y hy; obtain ⟨z, _, rfl⟩ := List.mem_map.1 hy; positivity)
    have he : (l.map fun y => (y - x) ^ 2).sum = (l.map fun y => y ^ 2).sum - 2 * x * l.sum + l.length * x ^ 2 := by
      clear ih hq
      induction l with
      | nil => simp
      | cons y l ih => simp only [List.map_cons, List.sum_cons, ih, List.length_cons]; push_cast; ring
    nlinarith

/-- Clipping can only reject anything if there are more images than sigclip^2 + 1: a value of n is never more than sqrt(n-1) standard deviations
from the mean. -/
theorem sigclip_needs_images (f : List ℝ → ℝ) (k : ℝ) (hk : 0 ≤ k) (l : List ℝ) (hn : (l.length : ℝ) ≤ k ^ 2 + 1) :
    combinePixel (.stat f) (some k) sdev l = .ok (f l) := by
  simp only [combinePixel]
  congr 2
  rw [List.filter_eq_self]
  intro v hv
  simp only [rejected, Bool.not_eq_true', decide_eq_false_iff_not, not_lt, gt_iff_lt]
  obtain ⟨a, b, rfl⟩ := List.append_of_mem hv
  set l := a ++ v :: b with hl
  have hlen : (l.length : ℝ) = (a ++ b).length + 1 := by rw [hl]; simp; ring
  have hpos : (0 : ℝ) < l.length := by rw [hlen]; positivity
  set mu := mean l with hmu
  have hsum : l.sum = l.length * mu := by rw [hmu]; unfold mean; field_simp
  set d := (a ++ b).map (fun x => x - mu) with hd
  have hdsum : d.sum = -(v - mu) := by
    rw [hd, sum_sub_const]
    have : l.sum = (a ++ b).sum + v := by rw [hl]; simp; ring
    rw [this, hlen] at hsum
    linarith
  have hdl : (d.length : ℝ) = l.length - 1 := by rw [hd, List.length_map, hlen]; ring
  have hss : (l.map fun x => (x - mu) ^ 2).sum = (v - mu) ^ 2 + (d.map fun x => x ^ 2).sum := by
    rw [hl, hd]; simp [List.map_map, Function.comp_def]; ring
  have hcs := sq_sum_le d
  rw [hdsum, hdl] at hcs
  have hS : 0 ≤ (d.map fun x => x ^ 2).sum := List.sum_nonneg (by intro y hy; obtain ⟨z, _, rfl⟩ := List.mem_map.1 hy; positivity)
  have hvar : (v - mu) ^ 2 ≤ k ^ 2 * ((l.map fun x => (x - mu) ^ 2).sum / l.length) := by
    rw [mul_div_assoc', le_div_iff₀ hpos, hss]
    have h1 : (v - mu) ^ 2 ≤ ((l.length : ℝ) - 1) * (d.map fun x => x ^ 2).sum := by nlinarith
    have h2 : ((l.length : ℝ) - 1) ≤ k ^ 2 := by linarith
    have h0 : 0 ≤ (v - mu) ^ 2 := sq_nonneg _
    have h3 : 0 ≤ (l.length : ℝ) - 1 := by rw [← hdl]; positivity
    nlinarith [mul_nonneg (sub_nonneg.2 h2) h0, mul_nonneg (sub_nonneg.2 h2) hS]
  have hle : v - mu ≤ k * sdev l := by
    have : √((v - mu) ^ 2) ≤ √(k ^ 2 * ((l.map fun x => (x - mu) ^ 2).sum / l.length)) := Real.sqrt_le_sqrt hvar
    rw [Real.sqrt_sq_eq_abs, Real.sqrt_mul (sq_nonneg k), Real.sqrt_sq hk] at this
    exact (le_abs_self _).trans this
  by_cases hs : sdev l = 0
  · rw [hs]; simp [hk]
  · have hp : 0 < sdev l := lt_of_le_of_ne (Real.sqrt_nonneg _) (Ne.symm hs)
    rwa [div_le_iff₀ hp]

/-- Combining with weights is the weighted sum of all values; sigma clipping has no effect on it. -/
theorem weights_sum (w l : List ℝ) (k : Option ℝ) (std) (h : w.length = l.length) :
    combinePixel (.weights w) k std l = .ok ((l.zip w).map fun p => p.1 * p.2).sum := by
  simp only [combinePixel, h, if_true]
  congr 2
  rw [List.map_zip_eq_zipWith]; rfl

theorem weights_ignore_sigclip (w l : List ℝ) (k : ℝ) (std) : combinePixel (.weights w) (some k) std l = combinePixel (.weights w) none std l := rfl

/-- Weights 1/n for n images give the mean. -/
theorem weights_mean (l : List ℝ) (std) (h : l ≠ []) : combinePixel (.weights (List.replicate l.length (1 / (l.length : ℝ)))) none std l = .ok (mean l) := by
  rw [weights_sum _ _ _ _ (by simp)]
  congr 1
  have : ∀ (l : List ℝ) (c : ℝ), ((l.zip (List.replicate l.length c)).map fun p => p.1 * p.2).sum = l.sum * c := by
    intro l c
    induction l with
    | nil => simp
    | cons x l ih => simp only [List.length_cons, List.replicate_succ, List.zip_cons_cons, List.map_cons, List.sum_cons, ih]; ring
  rw [this]; unfold mean; ring

/-! ### Shifts and trimming -/

/-- A shifted image for whole-pixel shifts (the spline passes through the pixels), zero outside, ccd.py 1548-1559. -/
noncomputable def shifted (im : Arr) (s : ℤ × ℤ) : Arr :=
  ⟨im.nx, im.ny, fun i j =>
    if 0 ≤ (i : ℤ) - s.1 ∧ (i : ℤ) - s.1 < im.nx ∧ 0 ≤ (j : ℤ) - s.2 ∧ (j : ℤ) - s.2 < im.ny then im.px ((i : ℤ) - s.1).toNat ((j : ℤ) - s.2).toNat else 0⟩

/-- Extremes of a list of shifts. -/
def lmin (l : List ℤ) : ℤ := l.foldr min (l.headD 0)
def lmax (l : List ℤ) : ℤ := l.foldr max (l.headD 0)

/-- The trimming range, ccd.py 1541-1543, 1596-1601: the extremes of the second components cut the first axis and vice versa. -/
def trimRange (nx ny : ℕ) (shifts : List (ℤ × ℤ)) : Rng :=
  let xs := shifts.map Prod.snd
  let ys := shifts.map Prod.fst
  ⟨lmax xs, nx - lmin xs, lmax ys, ny - lmin ys⟩

/-- A pixel at which every shifted image has data. -/
def Overlap (nx ny : ℕ) (shifts : List (ℤ × ℤ)) (i j : ℕ) : Prop :=
  ∀ s ∈ shifts, 0 ≤ (i : ℤ) - s.1 ∧ (i : ℤ) - s.1 < nx ∧ 0 ≤ (j : ℤ) - s.2 ∧ (j : ℤ) - s.2 < ny

theorem lmin_le (l : List ℤ) : ∀ x ∈ l, lmin l ≤ x := by
  have : ∀ (l : List ℤ) (d : ℤ), ∀ x ∈ l, l.foldr min d ≤ x := by
    intro l d
    induction l with
    | nil => simp
    | cons y l ih =>
      intro x hx
      simp only [List.foldr_cons]
      rcases List.mem_cons.1 hx with h | h
      · subst h; exact min_le_left _ _
      · exact (min_le_right _ _).trans (ih x h)
  exact this l _

theorem le_lmax (l : List ℤ) : ∀ x ∈ l, x ≤ lmax l := by
  have : ∀ (l : List ℤ) (d : ℤ), ∀ x ∈ l, x ≤ l.foldr max d := by
    intro l d
    induction l with
    | nil => simp
    | cons y l ih =>
      intro x hx
      simp only [List.foldr_cons]
      rcases List.mem_cons.1 hx with h | h
      · subst h; exact le_max_left _ _
      · exact (ih x h).trans (le_max_right _ _)
  exact this l _

theorem lmax_mem (l : List ℤ) (h : l ≠ []) : lmax l ∈ l := by
  have : ∀ (l : List ℤ) (d : ℤ), l.foldr max d = d ∨ l.foldr max d ∈ l := by
    intro l d
    induction l with
    | nil => simp
    | cons y l ih =>
      simp only [List.foldr_cons]
      rcases max_choice y (l.foldr max d) with h | h
      · right; rw [h]; simp
      · rw [h]; rcases ih with h | h
        · exact Or.inl h
        · right; simp [h]
  rcases this l (l.headD 0) with h' | h'
  · unfold lmax; rw [h']; cases l with
    | nil => exact absurd rfl h
    | cons y l => simp
  · exact h'

theorem lmin_mem (l : List ℤ) (h : l ≠ []) : lmin l ∈ l := by
  have : ∀ (l : List ℤ) (d : ℤ), l.foldr min d = d ∨ l.foldr min d ∈ l := by
    intro l d
    induction l with
    | nil => simp
    | cons y l ih =>
      simp only [List.foldr_cons]
      rcases min_choice y (l.foldr min d) with h | h
      · right; rw [h]; simp
      · rw [h]; rcases ih with h | h
        · exact Or.inl h
        · right; simp [h]
  rcases this l (l.headD 0) with h' | h'
  · unfold lmin; rw [h']; cases l with
    | nil => exact absurd rfl h
    | cons y l => simp
  · exact h'

/-- Trimming keeps exactly the overlap if the shifts along both axes are the same (diagonal shifts) and the smallest is 0. -/
theorem trim_exact (im : Arr) (shifts : List (ℤ × ℤ)) (hne : shifts ≠ []) (hd : ∀ s ∈ shifts, s.1 = s.2)
    (h0 : lmin (shifts.map Prod.fst) = 0) (hx : lmax (shifts.map Prod.fst) ≤ im.nx) (hy : lmax (shifts.map Prod.fst) ≤ im.ny) (i j : ℕ) (hij : im.has i j) :
    (trimRange im.nx im.ny shifts).inside im i j = true ↔ Overlap im.nx im.ny shifts i j := by
  have hsame : shifts.map Prod.snd = shifts.map Prod.fst := List.map_congr_left fun s hs => (hd s hs).symm
  obtain ⟨h1, h2⟩ := hij
  have hmx0 : 0 ≤ lmax (shifts.map Prod.fst) := by
    have := lmin_mem (shifts.map Prod.fst) (by simpa using hne)
    rw [h0] at this
    exact le_lmax _ _ this
  simp only [Rng.inside, decide_eq_true_eq, Rng.x0, Rng.x1, Rng.y0, Rng.y1, trimRange, hsame, h0, sub_zero, bound]
  have n1 : ¬ ((im.nx : ℤ) < 0) := by omega
  have n2 : ¬ ((im.ny : ℤ) < 0) := by omega
  simp only [if_neg (not_lt.2 hmx0), if_neg n1, if_neg n2]
  unfold Overlap
  constructor
  · rintro ⟨a1, a2, a3, a4⟩ s hs
    have l1 := le_lmax _ _ (List.mem_map_of_mem (f := Prod.fst) hs)
    have l2 := lmin_le _ _ (List.mem_map_of_mem (f := Prod.fst) hs)
    have l3 := hd s hs
    rw [h0] at l2
    omega
  · intro h
    obtain ⟨s, hs, he⟩ := List.mem_map.1 (lmax_mem (shifts.map Prod.fst) (by simpa using hne))
    have := h s hs
    have l3 := hd s hs
    rw [← he]
    omega

/-- Counterexamples: with a negative shift pixels that are missing in one image are kept; with different shifts along the axes the wrong axis is
trimmed; with only positive shifts pixels of the overlap are lost; with only negative shifts almost everything is. -/
theorem trim_counterexamples :
    (∃ i j, (trimRange 10 10 [(0, 0), (-2, -2)]).inside ⟨10, 10, fun _ _ => 0⟩ i j = true ∧ ¬ Overlap 10 10 [(0, 0), (-2, -2)] i j) ∧
    (∃ i j, (trimRange 10 10 [(0, 0), (3, 0)]).inside ⟨10, 10, fun _ _ => 0⟩ i j = true ∧ ¬ Overlap 10 10 [(0, 0), (3, 0)] i j) ∧
    (∃ i j, Overlap 10 10 [(2, 2), (3, 3)] i j ∧ i < 10 ∧ j < 10 ∧ (trimRange 10 10 [(2, 2), (3, 3)]).inside ⟨10, 10, fun _ _ => 0⟩ i j = false) ∧
    (∃ i j, Overlap 10 10 [(-1, -1), (-2, -2)] i j ∧ (trimRange 10 10 [(-1, -1), (-2, -2)]).inside ⟨10, 10, fun _ _ => 0⟩ i j = false) := by
  refine ⟨⟨9, 9, rfl, fun h => ?_⟩, ⟨0, 5, rfl, fun h => ?_⟩, ⟨9, 9, ?_, by norm_num, by norm_num, rfl⟩, ⟨3, 3, ?_, rfl⟩⟩
  · have := h (-2, -2) (by simp); simp at this
  · have := h (3, 0) (by simp); simp at this
  · intro s hs; simp only [List.mem_cons, List.not_mem_nil, or_false] at hs; rcases hs with h | h <;> subst h <;> norm_num
  · intro s hs; simp only [List.mem_cons, List.not_mem_nil, or_false] at hs; rcases hs with h | h <;> subst h <;> norm_num

/-- Shifting moves pixels: the value at (i,j) arrives at (i+s0, j+s1) if that is on the image. -/
theorem shifted_moves (im : Arr) (s : ℤ × ℤ) (i j i' j' : ℕ) (h : im.has i j) (hi : (i' : ℤ) = i + s.1) (hj : (j' : ℤ) = j + s.2) :
    (shifted im s).px i' j' = im.px i j := by
  obtain ⟨h1, h2⟩ := h
  simp only [shifted]
  rw [if_pos (by omega)]
  congr 1 <;> omega

example : (trimRange 10 10 [(0, 0), (2, 2), (3, 3)]).inside ⟨10, 10, fun _ _ => 0⟩ 5 4 = true := rfl

/-! ## Flat fields -/

/-- `flattenImage`, ccd.py 1640-1661: without a flat field the mean of None is taken first, which raises TypeError. -/
noncomputable def flatten (base : Option (List ℝ → ℝ)) (flat : Option Arr) (im : Arr) : Except Err Arr :=
  match base with
  | none => .error .value
  | some f =>
    match flat with
    | none => .error .type
    | some fl => if fl.nx = im.nx ∧ fl.ny = im.ny then .ok ⟨im.nx, im.ny, fun i j => im.px i j * f fl.pixels / fl.px i j⟩ else .error .value

/-- Flattening undoes the response: if the image is a scene times the flat field, the result is the scene times the base value (mean, median,
...) of the flat field, so that flattening a flat field with itself gives a constant image. -/
theorem flatten_scene (f : List ℝ → ℝ) (fl im out : Arr) (scene : ℕ → ℕ → ℝ) (h : flatten (some f) (some fl) im = .ok out)
    (hne : ∀ i j, fl.has i j → fl.px i j ≠ 0) (him : ∀ i j, im.px i j = scene i j * fl.px i j) (i j : ℕ) (hij : im.has i j) :
    out.px i j = scene i j * f fl.pixels := by
  unfold flatten at h
  simp only at h
  split at h
  · rename_i hs
    simp only [Except.ok.injEq] at h
    subst h
    have : fl.has i j := by unfold Arr.has at hij ⊢; rw [hs.1, hs.2]; exact hij
    simp only [him]
    have := hne i j this
    field_simp
  · simp at h

theorem flatten_ok (f : List ℝ → ℝ) (fl im : Arr) (h : fl.nx = im.nx ∧ fl.ny = im.ny) :
    flatten (some f) (some fl) im = .ok ⟨im.nx, im.ny, fun i j => im.px i j * f fl.pixels / fl.px i j⟩ := if_pos h

/-- The scale of the flat field does not matter (for base values that scale with it). -/
theorem flatten_scale (f : List ℝ → ℝ) (hf : ∀ (l : List ℝ) (c : ℝ), f (l.map fun x => c * x) = c * f l) (fl im a b : Arr) (c : ℝ) (hc : c ≠ 0)
    (ha : flatten (some f) (some fl) im = .ok a) (hb : flatten (some f) (some (fl.map fun x => c * x)) im = .ok b) : a.same b := by
  have hs : fl.nx = im.nx ∧ fl.ny = im.ny := by
    by_contra hn
    have : flatten (some f) (some fl) im = .error .value := if_neg hn
    rw [this] at ha
    simp at ha
  rw [flatten_ok f fl im hs, Except.ok.injEq] at ha
  rw [flatten_ok f (fl.map fun x => c * x) im hs, Except.ok.injEq] at hb
  subst ha hb
  refine ⟨rfl, rfl, fun i j _ => ?_⟩
  have : (fl.map fun x => c * x).pixels = fl.pixels.map fun x => c * x := by
    simp [Arr.pixels, Arr.map, List.map_flatMap, List.map_map, Function.comp_def]
  simp only [this, hf]
  simp only [Arr.map]
  by_cases hz : fl.px i j = 0
  · simp [hz]
  · field_simp

/-- Without a flat field flattening raises TypeError instead of returning the image. -/
theorem flatten_none (f : List ℝ → ℝ) (im : Arr) : flatten (some f) none im = .error .type := rfl

example : ∃ out, flatten (some mean) (some ⟨1, 2, fun _ j => if j = 0 then 1 else 3⟩) ⟨1, 2, fun _ j => if j = 0 then 10 else 30⟩ = .ok out ∧
    out.px 0 0 = 20 ∧ out.px 0 1 = 20 := by
  refine ⟨_, rfl, ?_, ?_⟩ <;> simp [mean, Arr.pixels, List.range_succ] <;> norm_num

end Verif.Ccd
