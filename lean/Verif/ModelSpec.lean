import Mathlib.Analysis.SpecialFunctions.Pow.Real
import Mathlib.Tactic.Linarith
import Mathlib.Tactic.FieldSimp
import Mathlib.Tactic.Ring

/-!
# Model spectra (astropysics/spec.py 2147-2222 with the errors of `Spectrum.__init__`, 312-352) (C196)

`build_model_spectrum`.  Real numbers instead of floats.  The blackbody curve scaled to its peak and the line profiles are functions of the wavelength that are given; `pixelize` turns a profile and the
wavelengths into a list.  Random numbers are given: `gauss i` any number, `uniform i` in [0, 1), `poisson` any draw for the flux.  The range increases, so sorting by x changes nothing.
-/

namespace Verif.ModelSpec

noncomputable section

/-- The curves. -/
structure Curves where
  blackbody : ℝ → ℝ
  gaussian : (mu sig peak : ℝ) → ℝ → ℝ
  lorentzian : (mu gamma peak : ℝ) → ℝ → ℝ
  voigt : (mu sig gamma peak : ℝ) → ℝ → ℝ
  /-- `pixelize(x0, sampling)` at pixel i -/
  pixelize : (sampling : ℤ) → (f : ℝ → ℝ) → (x0 : ℕ → ℝ) → ℕ → ℝ

/-- One of `lines`. -/
inductive Line
  | model (f : ℝ → ℝ)
  | seq (l : List ℝ)

inductive Noise
  | no
  | poisson
  | amount (a : ℝ)

structure Random where
  gauss : ℕ → ℝ
  uniform : ℕ → ℝ
  poisson : ℝ → ℕ → ℕ

structure Spectrum where
  x : ℕ → ℝ
  flux : ℕ → ℝ
  err : ℕ → ℝ

inductive Err
  | value
  deriving DecidableEq

/-- `np.linspace(a, b, n)` at pixel i. -/
def linspace (a b : ℝ) (n i : ℕ) : ℝ := a + i * ((b - a) / (n - 1))

/-- The profile of a line, spec.py 2189-2205. -/
def profile (C : Curves) : Line → Except Err (ℝ → ℝ)
  | .model f => .ok f
  | .seq [loc, A, w] => if 0 < w then .ok (C.gaussian loc w A) else .ok (C.lorentzian loc (-w) A)
  | .seq [loc, A, sig, w] => .ok (C.voigt loc sig w A)
  | .seq _ => .error .value

/-- The loop over the lines, spec.py 2187-2209. -/
def addLines (C : Curves) (sampling : ℤ) (x0 : ℕ → ℝ) : (ℕ → ℝ) → List Line → Except Err (ℕ → ℝ)
  | flux, [] => .ok flux
  | flux, l :: r => match profile C l with
    | .error e => .error e
    | .ok f => addLines C sampling x0 (fun i => flux i + if sampling = 1 then f (x0 i) else C.pixelize sampling f x0 i) r

/-- The flux before the noise, spec.py 2178-2209. -/
def clean (C : Curves) (n : ℕ) (a b z : ℝ) (lines : List Line) (sampling : ℤ) : Except Err (ℕ → ℝ) :=
  let x0 := fun i => linspace a b n i / (z + 1)
  addLines C sampling x0 (fun i => C.blackbody (x0 i)) lines

/-- The noise, spec.py 2210-2221: the flux and the errors; zero is no noise. -/
def addNoise (Q : Random) (flux : ℕ → ℝ) : Noise → (ℕ → ℝ) × Option (ℕ → ℝ)
  | .no => (flux, none)
  | .poisson => (fun i => (Q.poisson (flux i) i : ℝ), some fun i => (Q.poisson (flux i) i : ℝ) ^ (1 / 2 : ℝ))
  | .amount s =>
    if s = 0 then (flux, none)
    else
      let err := if 0 < s then fun i => Q.gauss i * s else fun i => flux i * (1 + (2 * Q.uniform i - 1) * -s) - flux i
      (fun i => flux i + err i, some err)

/-- The errors of the spectrum, spec.py 316-335: zero if there are none, and made positive. -/
def errors : Option (ℕ → ℝ) → ℕ → ℝ
  | none => fun _ => 0
  | some e => fun i => if e i < 0 then -1 * e i else e i

/-- `build_model_spectrum`, spec.py 2147-2222. -/
def build (C : Curves) (Q : Random) (n : ℕ) (a b z : ℝ) (noise : Noise) (lines : List Line) (sampling : ℤ) : Except Err Spectrum :=
  match clean C n a b z lines sampling with
  | .error e => .error e
  | .ok flux => let r := addNoise Q flux noise
    .ok ⟨linspace a b n, r.1, errors r.2⟩

/-! ## Specification -/

/-- The flux of the lines at a rest wavelength. -/
def total : List (ℝ → ℝ) → ℝ → ℝ
  | [], _ => 0
  | f :: r, x => f x + total r x

/-- What the lines are: a model, a location with a peak and a width (gaussian sigma if positive, else minus the lorentzian width), or with both widths. -/
inductive Profiles (C : Curves) : List Line → List (ℝ → ℝ) → Prop
  | nil : Profiles C [] []
  | model (f : ℝ → ℝ) {l fs} : Profiles C l fs → Profiles C (.model f :: l) (f :: fs)
  | gaussian (loc A w : ℝ) (h : 0 < w) {l fs} : Profiles C l fs → Profiles C (.seq [loc, A, w] :: l) (C.gaussian loc w A :: fs)
  | lorentzian (loc A w : ℝ) (h : 0 ≤ w) {l fs} : Profiles C l fs → Profiles C (.seq [loc, A, -w] :: l) (C.lorentzian loc w A :: fs)
  | voigt (loc A s w : ℝ) {l fs} : Profiles C l fs → Profiles C (.seq [loc, A, s, w] :: l) (C.voigt loc s w A :: fs)

/-! ## Proofs -/

theorem addLines_ok (C : Curves) (x0 : ℕ → ℝ) (l : List Line) (fs : List (ℝ → ℝ)) (h : Profiles C l fs) : ∀ flux, addLines C 1 x0 flux l = .ok fun i => flux i + total fs (x0 i) := by
  induction h with
  | nil => intro flux; simp [addLines, total]
  | model f _ ih => intro flux; simp [addLines, profile, ih, total, add_assoc]
  | gaussian loc A w h _ ih => intro flux; simp [addLines, profile, ih, total, add_assoc, h]
  | lorentzian loc A w h _ ih => intro flux; simp [addLines, profile, ih, total, add_assoc, not_lt.2 h]
  | voigt loc A s w _ ih => intro flux; simp [addLines, profile, ih, total, add_assoc]

theorem clean_ok (C : Curves) (n : ℕ) (a b z : ℝ) (l : List Line) (fs : List (ℝ → ℝ)) (h : Profiles C l fs) :
    clean C n a b z l 1 = .ok fun i => C.blackbody (linspace a b n i / (z + 1)) + total fs (linspace a b n i / (z + 1)) := by
  unfold clean; simp only; rw [addLines_ok C _ l fs h]

/-- C196.  Without noise: pixels at equal distances from one end of the range to the other, with the sum of the blackbody and the lines at the rest wavelength, and zero errors. -/
theorem noiseless (C : Curves) (Q : Random) (n : ℕ) (hn : 2 ≤ n) (a b z : ℝ) (l : List Line) (fs : List (ℝ → ℝ)) (h : Profiles C l fs) :
    ∃ s, build C Q n a b z .no l 1 = .ok s ∧ build C Q n a b z (.amount 0) l 1 = .ok s ∧ s.x 0 = a ∧ s.x (n - 1) = b ∧ (∀ i, s.x (i + 1) - s.x i = (b - a) / (n - 1)) ∧
      (∀ i, s.flux i = C.blackbody (s.x i / (1 + z)) + total fs (s.x i / (1 + z))) ∧ ∀ i, s.err i = 0 := by
  refine ⟨⟨linspace a b n, fun i => C.blackbody (linspace a b n i / (z + 1)) + total fs (linspace a b n i / (z + 1)), fun _ => 0⟩, ?_, ?_, ?_, ?_, ?_, ?_, fun _ => rfl⟩
  · simp [build, clean_ok C n a b z l fs h, addNoise, errors]
  · simp [build, clean_ok C n a b z l fs h, addNoise, errors]
  · simp [linspace]
  · have : ((n : ℝ) - 1) ≠ 0 := by have : (2 : ℝ) ≤ n := by exact_mod_cast hn
                                   linarith
    simp only [linspace]
    rw [Nat.cast_sub (by omega)]
    push_cast
    field_simp; ring
  · intro i; simp only [linspace]; push_cast; ring
  · intro i; rw [add_comm 1 z]

/-- C196.  The spectrum of a source at redshift z over a stretched range has the fluxes of the source at rest. -/
theorem redshift (C : Curves) (Q : Random) (n : ℕ) (a b z : ℝ) (hz : -1 < z) (l : List Line) (fs : List (ℝ → ℝ)) (h : Profiles C l fs) (noise : Noise) (s t : Spectrum)
    (hs : build C Q n a b 0 noise l 1 = .ok s) (ht : build C Q n ((1 + z) * a) ((1 + z) * b) z noise l 1 = .ok t) : t.flux = s.flux ∧ t.err = s.err ∧ ∀ i, t.x i = (1 + z) * s.x i := by
  have hz1 : z + 1 ≠ 0 := by linarith
  have hl : ∀ i, linspace ((1 + z) * a) ((1 + z) * b) n i = (1 + z) * linspace a b n i := by intro i; simp only [linspace]; ring
  have hx : ∀ i, linspace ((1 + z) * a) ((1 + z) * b) n i / (z + 1) = linspace a b n i / (0 + 1) := by intro i; rw [hl]; field_simp; ring
  simp only [build, clean_ok C n a b 0 l fs h, Except.ok.injEq] at hs
  simp only [build, clean_ok C n _ _ z l fs h, Except.ok.injEq, hx] at ht
  rw [← hs, ← ht]
  exact ⟨rfl, rfl, hl⟩

/-- C196.  With additive or multiplicative noise, every pixel is exactly one error away from the noiseless spectrum; multiplicative noise changes the flux by at most the given fraction. -/
theorem noise_exact (C : Curves) (Q : Random) (hu : ∀ i, 0 ≤ Q.uniform i ∧ Q.uniform i < 1) (n : ℕ) (a b z v : ℝ) (hv : v ≠ 0) (l : List Line) (sampling : ℤ) (s t : Spectrum)
    (hs : build C Q n a b z .no l sampling = .ok s) (ht : build C Q n a b z (.amount v) l sampling = .ok t) :
    t.x = s.x ∧ (∀ i, t.err i = |t.flux i - s.flux i|) ∧ (0 < v → ∀ i, t.flux i = s.flux i + v * Q.gauss i) ∧ (v < 0 → ∀ i, |t.flux i - s.flux i| ≤ |v| * |s.flux i|) ∧
    (-1 ≤ v → v < 0 → ∀ i, 0 ≤ s.flux i → 0 ≤ t.flux i) := by
  unfold build at hs ht
  cases hc : clean C n a b z l sampling with
  | error e => rw [hc] at hs; simp at hs
  | ok flux =>
    rw [hc] at hs ht
    simp only [addNoise, hv, if_false, Except.ok.injEq] at hs ht
    subst hs
    subst ht
    have hneg : ∀ i, v < 0 → |(flux i * (1 + (2 * Q.uniform i - 1) * -v) - flux i)| ≤ |v| * |flux i| := by
      intro i hv0
      have e : flux i * (1 + (2 * Q.uniform i - 1) * -v) - flux i = (2 * Q.uniform i - 1) * -v * flux i := by ring
      rw [e, abs_mul, abs_mul, abs_neg]
      have h1 : |2 * Q.uniform i - 1| ≤ 1 := abs_le.2 ⟨by linarith [(hu i).1], by linarith [(hu i).2]⟩
      have h2 : |2 * Q.uniform i - 1| * |v| ≤ |v| := by nlinarith [abs_nonneg v]
      nlinarith [abs_nonneg (flux i)]
    refine ⟨rfl, ?_, ?_, ?_, ?_⟩
    · intro i
      simp only [errors, add_sub_cancel_left]
      generalize (if 0 < v then fun i => Q.gauss i * v else fun i => flux i * (1 + (2 * Q.uniform i - 1) * -v) - flux i) i = e
      split
      · rename_i h; rw [abs_of_neg h]; ring
      · rename_i h; rw [abs_of_nonneg (not_lt.1 h)]
    · intro h i; simp only [h, if_true]; ring
    · intro h i
      simp only [not_lt.2 h.le, if_false, add_sub_cancel_left]
      exact hneg i h
    · intro h1 h i hf
      simp only [not_lt.2 h.le, if_false]
      have := hneg i h
      rw [abs_of_neg h, abs_of_nonneg hf] at this
      have h2 := (abs_le.1 this).1
      nlinarith

/-- C196.  With poisson noise the flux is the drawn number and the error its square root. -/
theorem poisson_exact (C : Curves) (Q : Random) (n : ℕ) (a b z : ℝ) (l : List Line) (sampling : ℤ) (s t : Spectrum)
    (hs : build C Q n a b z .no l sampling = .ok s) (ht : build C Q n a b z .poisson l sampling = .ok t) :
    t.x = s.x ∧ (∀ i, t.flux i = Q.poisson (s.flux i) i) ∧ ∀ i, 0 ≤ t.err i ∧ t.err i ^ 2 = t.flux i := by
  unfold build at hs ht
  cases hc : clean C n a b z l sampling with
  | error e => rw [hc] at hs; simp at hs
  | ok flux =>
    rw [hc] at hs ht
    simp only [addNoise, Except.ok.injEq] at hs ht
    subst hs
    subst ht
    refine ⟨rfl, fun _ => rfl, fun i => ?_⟩
    have h0 : (0 : ℝ) ≤ (Q.poisson (flux i) i : ℝ) := Nat.cast_nonneg _
    have h1 : 0 ≤ (Q.poisson (flux i) i : ℝ) ^ (1 / 2 : ℝ) := Real.rpow_nonneg h0 _
    simp only [errors, not_lt.2 h1, if_false]
    exact ⟨h1, by rw [← Real.sqrt_eq_rpow, Real.sq_sqrt h0]⟩

/-- C196.  A line that is neither a model nor three or four numbers is a ValueError, and nothing else is. -/
theorem lines_exact (C : Curves) (Q : Random) (n : ℕ) (a b z : ℝ) (noise : Noise) (l : List Line) (sampling : ℤ) :
    build C Q n a b z noise l sampling = .error .value ↔ ∃ k, Line.seq k ∈ l ∧ k.length ≠ 3 ∧ k.length ≠ 4 := by
  have hp : ∀ x : Line, profile C x = .error .value ↔ ∃ k, x = .seq k ∧ k.length ≠ 3 ∧ k.length ≠ 4 := by
    intro x
    cases x with
    | model f => simp [profile]
    | seq k =>
      match k with
      | [] => simp [profile]
      | [_] => simp [profile]
      | [_, _] => simp [profile]
      | [_, _, w] => simp only [profile]; split <;> simp
      | [_, _, _, _] => simp [profile]
      | _ :: _ :: _ :: _ :: _ :: _ => simp [profile]
  have hl : ∀ (l : List Line) x0 flux, addLines C sampling x0 flux l = .error .value ↔ ∃ k, Line.seq k ∈ l ∧ k.length ≠ 3 ∧ k.length ≠ 4 := by
    intro l x0
    induction l with
    | nil => intro flux; simp [addLines]
    | cons x r ih =>
      intro flux
      have hx := hp x
      simp only [addLines]
      cases hpx : profile C x with
      | error e =>
        cases e
        obtain ⟨k, rfl, hk⟩ := hx.1 hpx
        exact iff_of_true rfl ⟨k, by simp, hk⟩
      | ok f =>
        simp only [ih]
        constructor
        · rintro ⟨k, hk, h⟩; exact ⟨k, by simp [hk], h⟩
        · rintro ⟨k, hk, h⟩
          rcases List.mem_cons.1 hk with rfl | hk
          · have := hx.2 ⟨k, rfl, h⟩; rw [hpx] at this; simp at this
          · exact ⟨k, hk, h⟩
  unfold build
  rw [← hl l (fun i => linspace a b n i / (z + 1)) (fun i => C.blackbody (linspace a b n i / (z + 1)))]
  unfold clean
  simp only
  cases addLines C sampling (fun i => linspace a b n i / (z + 1)) (fun i => C.blackbody (linspace a b n i / (z + 1))) l with
  | error e => cases e; simp
  | ok f => simp

/-- A case: an emission and an absorption line. -/
theorem example_lines (C : Curves) : Profiles C [.seq [5000, 2, 10], .seq [6000, -1, -5], .model fun x => x] [C.gaussian 5000 10 2, C.lorentzian 6000 5 (-1), fun x => x] :=
  .gaussian 5000 2 10 (by norm_num) (.lorentzian 6000 (-1) 5 (by norm_num) (.model _ .nil))

end

end Verif.ModelSpec
