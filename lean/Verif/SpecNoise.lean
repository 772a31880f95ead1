import Mathlib.Analysis.Real.Sqrt
import Mathlib.Tactic.Linarith

/-!
# Model spectra with noise (astropysics/spec.py 1306-1345, 1371-1479) (C175)

`ModelSpectrum`: the properties `x`, `noisefunc` and `noisetype`.  The model is a function of the axis, the noise function one of axis and flux (which may
raise); the random numbers are a parameter of every operation that draws some.  Units are not changed (C71).  Arrays of unequal lengths do not combine
(ValueError; the broadcasting of arrays of length 1 is not modelled), the axis is an array.
-/

namespace Verif.SpecNoise

noncomputable section

/-- The exceptions: AttributeError, ValueError, TypeError, one of the noise function. -/
inductive Err
  | attribute | value | type | user
  deriving DecidableEq

/-- The noise types. -/
inductive Kind
  | poisson | normal
  deriving DecidableEq

abbrev Arr := List ℝ
/-- A noise function. -/
abbrev NF := Arr → Arr → Except Err Arr

/-- The attributes; `_noisefunc`, `_noisetype` and `_noise` may not exist (`none`).  The closures of spec.py 1452-1461 refer to the current noise function, so
`_errf` and `_noise` are known by their kind. -/
structure St where
  x : Arr
  flux : Arr
  err : Arr
  nf : Option (Option NF)
  typ : Option (Option Kind)
  errf : Option Kind
  noise : Option (Option Kind)

/-- `a op b` element by element. -/
def zip2 (f : ℝ → ℝ → ℝ) (a b : Arr) : Except Err Arr := if a.length = b.length then .ok (List.zipWith f a b) else .error .value

/-- A call of `self._noisefunc`. -/
def callNF (s : St) (x flux : Arr) : Except Err Arr :=
  match s.nf with
  | none => .error .attribute
  | some none => .error .type
  | some (some g) => g x flux

/-- `self._errf(x)` or zeros, spec.py 1331, 1452, 1458: `self._flux` is still the old flux. -/
def errOf (s : St) (x : Arr) : Except Err Arr :=
  match s.errf with
  | none => .ok (x.map fun _ => 0)
  | some .normal => callNF s x s.flux
  | some .poisson => match callNF s x s.flux with
    | .error e => .error e
    | .ok g => zip2 (fun a b => a * (√b)⁻¹) s.flux g

/-- `FunctionSpectrum._setX`, spec.py 1324-1339. -/
def setXF (f : Arr → Arr) (s : St) (x : Arr) : St × Option Err :=
  match errOf { s with x := x } x with
  | .error e => ({ s with x := x }, some e)
  | .ok e => ({ s with x := x, flux := f x, err := e }, none)

/-- The noise added in place, spec.py 1453-1455, 1459-1461; `draw` is `np.random.poisson` or `np.random.normal` for these scales. -/
def noisy (s : St) (k : Kind) (draw : Arr → Arr) : Except Err Arr :=
  match callNF s s.x s.flux with
  | .error e => .error e
  | .ok g => if g.length = s.x.length then
      match k with
      | .poisson => match zip2 (fun a b => a / b) (draw g) g with
        | .error e => .error e
        | .ok r => zip2 (fun a b => a * b) s.flux r
      | .normal => zip2 (fun a b => a + b) s.flux (draw g)
    else .error .value

/-- `ModelSpectrum._setX`, spec.py 1394-1397. -/
def setX (f : Arr → Arr) (s : St) (x : Arr) (draw : Arr → Arr) : St × Option Err :=
  match setXF f s x with
  | (s1, some e) => (s1, some e)
  | (s1, none) => match s1.noise with
    | none => (s1, some .attribute)
    | some none => (s1, none)
    | some (some k) => match noisy s1 k draw with
      | .error e => (s1, some e)
      | .ok fl => ({ s1 with flux := fl }, none)

/-- What can be assigned to `noisefunc`: None, a function or a scalar (the constant function), something else. -/
inductive NFArg
  | none | fn (g : NF) | scalar (c : ℝ) | bad

def constNF (c : ℝ) : NF := fun x _ => .ok (x.map fun _ => c)

/-- The part of `_setNoisefunc` with a function, spec.py 1427-1434. -/
def installNF (f : Arr → Arr) (s : St) (g : NF) (draw : Arr → Arr) : St × Option Err :=
  match s.nf with
  | none => (s, some .attribute)
  | some old =>
    match s.typ with
    | none => (s, some .attribute)
    | some none => ({ s with nf := some (some g) }, none)
    | some (some _) => match setX f { s with nf := some (some g) } s.x draw with
      | (s1, none) => (s1, none)
      | (s1, some e) => ({ s1 with nf := some old }, some e)

/-- `_setNoisefunc`, spec.py 1416-1434. -/
def setNF (f : Arr → Arr) (s : St) (a : NFArg) (draw : Arr → Arr) : St × Option Err :=
  match a with
  | .none => ({ s with nf := some none }, none)
  | .bad => (s, some .value)
  | .fn g => installNF f s g draw
  | .scalar c => installNF f s (constNF c) draw

/-- What can be assigned to `noisetype`: None, `'poisson'`, `'normal'` or a text with `gauss`, another text. -/
inductive TypeArg
  | none | kind (k : Kind) | other

/-- `_setNoisetype`, spec.py 1441-1478. -/
def setType (f : Arr → Arr) (s : St) (a : TypeArg) (draw : Arr → Arr) : St × Option Err :=
  match a with
  | .none => ({ s with typ := some Option.none, errf := Option.none, noise := some Option.none }, Option.none)
  | .kind k => match s.nf with
    | Option.none => (s, some .attribute)
    | some Option.none => (s, some .value)
    | some (some _) => match setX f { s with typ := some (some k), noise := some (some k), errf := some k } s.x draw with
      | (s1, Option.none) => (s1, Option.none)
      | (s1, some e) => ({ s1 with typ := s.typ, errf := s.errf, noise := s.noise }, some e)
  | .other => match s.nf with
    | Option.none => (s, some .attribute)
    | some _ => (s, some .value)

/-- The constructor, spec.py 1375-1392. -/
def new (f : Arr → Arr) (x : Arr) (nf : NFArg) (typ : TypeArg) (draw : Arr → Arr) : Except Err St :=
  match setNF f ⟨x, f x, x.map fun _ => 0, none, none, none, none⟩ nf draw with
  | (_, some e) => .error e
  | (s, none) => match setType f s typ draw with
    | (_, some e) => .error e
    | (s', none) => .ok s'

/-- Assignments by the user. -/
inductive Op
  | x (x : Arr) (draw : Arr → Arr)
  | nf (a : NFArg) (draw : Arr → Arr)
  | typ (a : TypeArg) (draw : Arr → Arr)

/-- The state after an assignment, whether or not it raised. -/
def step (f : Arr → Arr) (s : St) : Op → St × Option Err
  | .x x draw => setX f s x draw
  | .nf a draw => setNF f s a draw
  | .typ a draw => setType f s a draw

def run (f : Arr → Arr) (s : St) (ops : List Op) : St := ops.foldl (fun s o => (step f s o).1) s

/-! ## C175 -/

/-- C175.  A model spectrum can be made without noise only: its flux is the model on the axis, its errors are 0.  Any noise function raises AttributeError, and a
noise type without one ValueError. -/
theorem new_exact (f : Arr → Arr) (x : Arr) (nf : NFArg) (typ : TypeArg) (draw : Arr → Arr) :
    ((∃ s, new f x nf typ draw = .ok s) ↔ nf = .none ∧ typ = .none) ∧
    (new f x .none .none draw = .ok ⟨x, f x, x.map fun _ => 0, some none, some none, none, some none⟩) ∧
    (∀ g, new f x (.fn g) typ draw = .error .attribute) ∧ (∀ c, new f x (.scalar c) typ draw = .error .attribute) ∧
    (∀ k, new f x .none (.kind k) draw = .error .value) := by
  refine ⟨?_, rfl, fun g => rfl, fun c => rfl, fun k => rfl⟩
  constructor
  · rintro ⟨s, hs⟩
    cases nf with
    | none => cases typ with
      | none => exact ⟨rfl, rfl⟩
      | kind k => exact absurd hs (by simp [new, setNF, setType])
      | other => exact absurd hs (by simp [new, setNF, setType])
    | fn g => exact absurd hs (by simp [new, setNF, installNF])
    | scalar c => exact absurd hs (by simp [new, setNF, installNF])
    | bad => exact absurd hs (by simp [new, setNF])
  · rintro ⟨rfl, rfl⟩; exact ⟨_, rfl⟩

/-- The attributes agree. -/
def Ok (s : St) : Prop := s.nf ≠ none ∧ ∃ t, s.typ = some t ∧ s.errf = t ∧ s.noise = some t

/-- Assigning to `x` leaves the noise attributes. -/
theorem setX_attrs (f : Arr → Arr) (s : St) (x : Arr) (draw : Arr → Arr) :
    (setX f s x draw).1.nf = s.nf ∧ (setX f s x draw).1.typ = s.typ ∧ (setX f s x draw).1.errf = s.errf ∧ (setX f s x draw).1.noise = s.noise ∧
    (setX f s x draw).1.x = x := by
  unfold setX setXF
  cases errOf { s with x := x } x with
  | error e => exact ⟨rfl, rfl, rfl, rfl, rfl⟩
  | ok e =>
    simp only
    split
    · exact ⟨rfl, rfl, rfl, rfl, rfl⟩
    · exact ⟨rfl, rfl, rfl, rfl, rfl⟩
    · split <;> exact ⟨rfl, rfl, rfl, rfl, rfl⟩

theorem step_ok (f : Arr → Arr) (s : St) (o : Op) (h : Ok s) : Ok (step f s o).1 := by
  obtain ⟨x0, fl0, er0, nf0, typ0, errf0, noise0⟩ := s
  obtain ⟨h1, t, h2, h3, h4⟩ := h
  simp only at h1 h2 h3 h4
  subst h2 h3 h4
  obtain ⟨old, rfl⟩ := Option.ne_none_iff_exists'.mp h1
  have inst : ∀ g draw, Ok (installNF f ⟨x0, fl0, er0, some old, some errf0, errf0, some errf0⟩ g draw).1 := by
    intro g draw
    simp only [installNF]
    cases errf0 with
    | none => exact ⟨by simp, none, rfl, rfl, rfl⟩
    | some k =>
      simp only
      obtain ⟨a1, a2, a3, a4, -⟩ := setX_attrs f ⟨x0, fl0, er0, some (some g), some (some k), some k, some (some k)⟩ x0 draw
      rcases hs : setX f ⟨x0, fl0, er0, some (some g), some (some k), some k, some (some k)⟩ x0 draw with ⟨s1, e⟩
      rw [hs] at a1 a2 a3 a4
      cases e with
      | none => exact ⟨by simp at a1; simp [a1], some k, a2, a3, a4⟩
      | some e => exact ⟨by simp, some k, a2, a3, a4⟩
  cases o with
  | x x draw =>
    obtain ⟨a1, a2, a3, a4, -⟩ := setX_attrs f ⟨x0, fl0, er0, some old, some errf0, errf0, some errf0⟩ x draw
    exact ⟨by simp only [step]; rw [a1]; simp, errf0, a2, a3, a4⟩
  | nf a draw =>
    cases a with
    | none => exact ⟨by simp [step, setNF], errf0, rfl, rfl, rfl⟩
    | bad => exact ⟨h1, errf0, rfl, rfl, rfl⟩
    | fn g => exact inst g draw
    | scalar c => exact inst _ draw
  | typ a draw =>
    cases a with
    | none => exact ⟨h1, none, rfl, rfl, rfl⟩
    | other => exact ⟨h1, errf0, rfl, rfl, rfl⟩
    | kind k =>
      simp only [step, setType]
      cases old with
      | none => exact ⟨h1, errf0, rfl, rfl, rfl⟩
      | some g =>
        simp only
        obtain ⟨a1, a2, a3, a4, -⟩ := setX_attrs f ⟨x0, fl0, er0, some (some g), some (some k), some k, some (some k)⟩ x0 draw
        rcases hs : setX f ⟨x0, fl0, er0, some (some g), some (some k), some k, some (some k)⟩ x0 draw with ⟨s1, e⟩
        rw [hs] at a1 a2 a3 a4
        cases e with
        | none => exact ⟨by simp at a1; simp [a1], some k, a2, a3, a4⟩
        | some e => exact ⟨by simp at a1; simp [a1], errf0, rfl, rfl, rfl⟩

/-- C175.  Whatever is assigned, in any order and with any exceptions, noise type, errors and noise belong together. -/
theorem history_ok (f : Arr → Arr) (x : Arr) (draw : Arr → Arr) (s : St) (h : new f x .none .none draw = .ok s) (ops : List Op) : Ok (run f s ops) := by
  have hs : Ok s := by
    rw [(new_exact f x .none .none draw).2.1] at h
    rw [← Except.ok.inj h]
    exact ⟨by simp, none, rfl, rfl, rfl⟩
  clear h
  unfold run
  induction ops generalizing s with
  | nil => exact hs
  | cons o ops ih => exact ih _ (step_ok f s o hs)

/-- C175.  Without noise, assigning to `x` always succeeds: the flux is the model on the new axis and the errors are 0. -/
theorem no_noise (f : Arr → Arr) (s : St) (h : Ok s) (ht : s.typ = some none) (x : Arr) (draw : Arr → Arr) :
    setX f s x draw = ({ s with x := x, flux := f x, err := x.map fun _ => 0 }, none) := by
  obtain ⟨h1, t, h2, h3, h4⟩ := h
  rw [ht] at h2
  obtain rfl := Option.some.inj h2
  simp only [setX, setXF, errOf, h3, h4]

/-- C175.  Normal noise: the flux is the model plus numbers drawn for the scales the noise function has for the model's flux; the errors are those scales for the flux
*before*. -/
theorem normal_noise (f : Arr → Arr) (s : St) (h : Ok s) (ht : s.typ = some (some .normal)) (g : NF) (hg : s.nf = some (some g)) (x : Arr) (draw : Arr → Arr)
    (sig old : Arr) (h1 : g x (f x) = .ok sig) (h2 : g x s.flux = .ok old) (hl : sig.length = x.length) (hd : (f x).length = (draw sig).length) :
    setX f s x draw = ({ s with x := x, flux := List.zipWith (· + ·) (f x) (draw sig), err := old }, none) := by
  obtain ⟨_, t, h2', h3, h4⟩ := h
  rw [ht] at h2'
  obtain rfl := Option.some.inj h2'
  simp only [setX, setXF, errOf, h3, h4, callNF, hg, h2, noisy, h1, if_pos hl, zip2, if_pos hd]

/-- C175.  Poisson noise likewise: the flux is the model times the drawn numbers over their means; the errors are the flux *before* over the root of the noise
function of that flux. -/
theorem poisson_noise (f : Arr → Arr) (s : St) (h : Ok s) (ht : s.typ = some (some .poisson)) (g : NF) (hg : s.nf = some (some g)) (x : Arr) (draw : Arr → Arr)
    (mu old : Arr) (h1 : g x (f x) = .ok mu) (h2 : g x s.flux = .ok old) (hl : mu.length = x.length) (hd : (draw mu).length = mu.length)
    (hf : (f x).length = x.length) (ho : s.flux.length = old.length) :
    setX f s x draw = ({ s with x := x, flux := List.zipWith (· * ·) (f x) (List.zipWith (· / ·) (draw mu) mu),
                                err := List.zipWith (fun a b => a * (√b)⁻¹) s.flux old }, none) := by
  obtain ⟨_, t, h2', h3, h4⟩ := h
  rw [ht] at h2'
  obtain rfl := Option.some.inj h2'
  have e : (f x).length = (List.zipWith (fun a b => a / b) (draw mu) mu).length := by rw [List.length_zipWith, hd, min_self, hf, hl]
  simp only [setX, setXF, errOf, h3, h4, callNF, hg, h2, noisy, h1, if_pos hl, zip2, if_pos hd, if_pos ho, if_pos e]

/-- C175.  A scalar noise function gives that error to every pixel under normal noise. -/
theorem scalar_noise (f : Arr → Arr) (s : St) (h : Ok s) (ht : s.typ = some (some .normal)) (c : ℝ) (hg : s.nf = some (some (constNF c))) (x : Arr)
    (draw : Arr → Arr) (hd : (f x).length = (draw (x.map fun _ => c)).length) :
    ∃ s', setX f s x draw = (s', none) ∧ s'.x = x ∧ s'.err = x.map (fun _ => c) ∧ s'.flux = List.zipWith (· + ·) (f x) (draw (x.map fun _ => c)) :=
  ⟨_, normal_noise f s h ht _ hg x draw _ _ rfl rfl (by simp) hd, rfl, rfl, rfl⟩

/-- C175.  Removing the noise type leaves the noise in the flux and the errors as they were; only the next assignment to `x` removes both. -/
theorem remove_type (f : Arr → Arr) (s : St) (h : Ok s) (draw draw' : Arr → Arr) :
    ∃ s', setType f s .none draw = (s', none) ∧ s'.flux = s.flux ∧ s'.err = s.err ∧ s'.typ = some none ∧
      (setX f s' s'.x draw').1.flux = f s.x ∧ (setX f s' s'.x draw').1.err = s.x.map (fun _ => 0) := by
  refine ⟨_, rfl, rfl, rfl, rfl, ?_⟩
  have := no_noise f { s with typ := some none, errf := none, noise := some none } ⟨h.1, none, rfl, rfl, rfl⟩ rfl s.x draw'
  rw [this]
  exact ⟨rfl, rfl⟩

/-- C175.  Removing the noise function while there is a noise type spoils the spectrum: every later assignment to `x` raises TypeError, after the axis has been
changed and with the flux of the old one. -/
theorem remove_function (f : Arr → Arr) (s : St) (h : Ok s) (k : Kind) (ht : s.typ = some (some k)) (draw : Arr → Arr) :
    ∃ s', setNF f s .none draw = (s', none) ∧ ∀ x draw', (setX f s' x draw').2 = some .type ∧ (setX f s' x draw').1.x = x ∧
      (setX f s' x draw').1.flux = s.flux := by
  obtain ⟨_, t, h2', h3, h4⟩ := h
  rw [ht] at h2'
  obtain rfl := Option.some.inj h2'
  refine ⟨_, rfl, fun x draw' => ?_⟩
  cases k <;> simp [setX, setXF, errOf, h3, callNF]

/-- C175.  With Poisson noise the axis cannot be replaced by one of another length if the noise function gives a value per pixel: ValueError, the axis is the new one and
the flux the old one. -/
theorem resize_fails (f : Arr → Arr) (s : St) (h : Ok s) (ht : s.typ = some (some .poisson)) (g : NF) (hg : s.nf = some (some g)) (x : Arr) (r : Arr)
    (hr : g x s.flux = .ok r) (hx : r.length = x.length) (hne : x.length ≠ s.flux.length) (draw : Arr → Arr) :
    setX f s x draw = ({ s with x := x }, some .value) := by
  obtain ⟨_, t, h2', h3, h4⟩ := h
  rw [ht] at h2'
  obtain rfl := Option.some.inj h2'
  have : s.flux.length ≠ r.length := by rw [hx]; exact hne.symm
  simp only [setX, setXF, errOf, h3, callNF, hg, hr, zip2, if_neg this]

/-- C175.  If the noise function raises for the flux of the model, so does the assignment: the axis and the errors are the new ones, the flux is the model without noise. -/
theorem noise_raises (f : Arr → Arr) (s : St) (h : Ok s) (ht : s.typ = some (some .normal)) (g : NF) (hg : s.nf = some (some g)) (x : Arr) (draw : Arr → Arr)
    (old : Arr) (e : Err) (h1 : g x (f x) = .error e) (h2 : g x s.flux = .ok old) : setX f s x draw = ({ s with x := x, flux := f x, err := old }, some e) := by
  obtain ⟨_, t, h2', h3, h4⟩ := h
  rw [ht] at h2'
  obtain rfl := Option.some.inj h2'
  simp only [setX, setXF, errOf, h3, h4, callNF, hg, h2, noisy, h1]

/-- C175.  A noise function assigned while there is no noise type is stored and changes nothing else. -/
theorem store_function (f : Arr → Arr) (s : St) (h : Ok s) (ht : s.typ = some none) (g : NF) (c : ℝ) (draw : Arr → Arr) :
    setNF f s (.fn g) draw = ({ s with nf := some (some g) }, none) ∧ setNF f s (.scalar c) draw = ({ s with nf := some (some (constNF c)) }, none) := by
  obtain ⟨old, ho⟩ := Option.ne_none_iff_exists'.mp h.1
  simp only [setNF, installNF, ho, ht, and_self]

/-- C175.  An exception while the noise type or the noise function is set leaves both as they were. -/
theorem set_restores (f : Arr → Arr) (s : St) (a : TypeArg) (b : NFArg) (draw : Arr → Arr) :
    (∀ s' e, setType f s a draw = (s', some e) → s'.typ = s.typ ∧ s'.nf = s.nf ∧ s'.errf = s.errf ∧ s'.noise = s.noise ∧ s'.x = s.x) ∧
    (∀ s' e, setNF f s b draw = (s', some e) → s'.typ = s.typ ∧ s'.nf = s.nf ∧ s'.errf = s.errf ∧ s'.noise = s.noise ∧ s'.x = s.x) := by
  obtain ⟨x0, fl0, er0, nf0, typ0, errf0, noise0⟩ := s
  have inst : ∀ g s' e, installNF f ⟨x0, fl0, er0, nf0, typ0, errf0, noise0⟩ g draw = (s', some e) →
      s'.typ = typ0 ∧ s'.nf = nf0 ∧ s'.errf = errf0 ∧ s'.noise = noise0 ∧ s'.x = x0 := by
    intro g s' e he
    unfold installNF at he
    cases nf0 with
    | none => simp only [Prod.mk.injEq] at he; rw [← he.1]; exact ⟨rfl, rfl, rfl, rfl, rfl⟩
    | some old =>
      cases typ0 with
      | none => simp only [Prod.mk.injEq] at he; rw [← he.1]; exact ⟨rfl, rfl, rfl, rfl, rfl⟩
      | some t =>
        cases t with
        | none => simp at he
        | some k =>
          simp only at he
          obtain ⟨a1, a2, a3, a4, a5⟩ := setX_attrs f ⟨x0, fl0, er0, some (some g), some (some k), errf0, noise0⟩ x0 draw
          rcases hs : setX f ⟨x0, fl0, er0, some (some g), some (some k), errf0, noise0⟩ x0 draw with ⟨s1, e'⟩
          rw [hs] at he a1 a2 a3 a4 a5
          cases e' with
          | none => simp at he
          | some e' =>
            simp only [Prod.mk.injEq] at he
            rw [← he.1]
            exact ⟨a2, rfl, a3, a4, a5⟩
  constructor
  · intro s' e he
    cases a with
    | none => simp [setType] at he
    | other =>
      cases nf0 <;> simp only [setType, Prod.mk.injEq] at he <;> rw [← he.1] <;> exact ⟨rfl, rfl, rfl, rfl, rfl⟩
    | kind k =>
      cases nf0 with
      | none => simp only [setType, Prod.mk.injEq] at he; rw [← he.1]; exact ⟨rfl, rfl, rfl, rfl, rfl⟩
      | some v =>
        cases v with
        | none => simp only [setType, Prod.mk.injEq] at he; rw [← he.1]; exact ⟨rfl, rfl, rfl, rfl, rfl⟩
        | some g =>
          simp only [setType] at he
          obtain ⟨a1, a2, a3, a4, a5⟩ := setX_attrs f ⟨x0, fl0, er0, some (some g), some (some k), some k, some (some k)⟩ x0 draw
          rcases hs : setX f ⟨x0, fl0, er0, some (some g), some (some k), some k, some (some k)⟩ x0 draw with ⟨s1, e'⟩
          rw [hs] at he a1 a2 a3 a4 a5
          cases e' with
          | none => simp at he
          | some e' =>
            simp only [Prod.mk.injEq] at he
            rw [← he.1]
            exact ⟨rfl, a1, rfl, rfl, a5⟩
  · intro s' e he
    cases b with
    | none => simp [setNF] at he
    | bad => simp only [setNF, Prod.mk.injEq] at he; rw [← he.1]; exact ⟨rfl, rfl, rfl, rfl, rfl⟩
    | fn g => exact inst g s' e he
    | scalar c => exact inst _ s' e he

/-- A spectrum of two pixels whose noise function is its flux. -/
def sampleSt : St := ⟨[1, 2], [5, 7], [0, 0], some (some fun _ fl => .ok fl), some (some .normal), some .normal, some (some .normal)⟩

/-- C175.  The errors are then not the scales of the noise: here the model is 1 everywhere, the errors 5 and 7. -/
theorem errors_stale : (setX (fun x => x.map fun _ => 1) sampleSt [3, 4] (fun _ => [0, 0])).1.err = [5, 7] ∧
    (setX (fun x => x.map fun _ => 1) sampleSt [3, 4] (fun _ => [0, 0])).1.flux = [1, 1] := by
  simp [setX, setXF, errOf, sampleSt, callNF, noisy, zip2]

example : Ok sampleSt ∧ sampleSt.typ = some (some .normal) := ⟨⟨by simp [sampleSt], _, rfl, rfl, rfl⟩, rfl⟩

end

end Verif.SpecNoise
