import Mathlib.Data.List.Basic
import Mathlib.Tactic.Common
import Mathlib.Logic.Function.Iterate

/-!
# Continuum fits over a session (astropysics/spec.py, `Spectrum.fitContinuum`, 844-911) (C227)

Models and the fitting itself are parameters; the window of `interactive` is what the user makes of the model, or nothing when cancelled.
-/

namespace Verif.FitContinuum

/-- What the continuum can be. -/
inductive Cont (M A : Type)
  | none
  | model (m : M)
  | values (a : A)
  deriving DecidableEq

/-- The argument `model`: nothing, a name, an object that can be fitted or one that cannot. -/
inductive Arg (M : Type)
  | none
  | named (s : String)
  | object (m : M)
  | unfit

inductive Err
  | value
  | attribute
  | unknownName
  deriving DecidableEq

/-- Models, fitting (with the inverse variance as weights or without) and evaluation at the spectrum's points; `byName` is `get_model_class(s)(**kwargs)`. -/
structure World (M A : Type) where
  byName : String → Option M
  fit : Bool → M → M
  eval : M → A

variable {M A : Type}

/-- One call (spec.py:867-911).  `gui` is none when not interactive.  Simplified: an evaluated continuum given to the window is taken as failing, like the
fit of it; a model object passed in is not the one already held as the continuum. -/
def fitContinuum (w : World M A) (model : Arg M) (weighted evaluate : Bool) (gui : Option (M → Option M)) (cont : Cont M A) :
    Cont M A × Option Err :=
  let fitted : Except Err M × Cont M A :=
    match model with
    | .none => match cont with
      | .none => match w.byName "uniformknotspline" with
        | none => (.error .unknownName, cont)
        | some m => (.ok (w.fit weighted m), cont)
      | .model m => if gui.isSome then (.ok m, cont) else (.ok (w.fit weighted m), .model (w.fit weighted m))
      | .values _ => (.error .attribute, cont)
    | .named s => match w.byName s with
      | none => (.error .unknownName, cont)
      | some m => (.ok (w.fit weighted m), cont)
    | .object m => (.ok (w.fit weighted m), cont)
    | .unfit => (.error .value, cont)
  match fitted.1 with
  | .error e => (fitted.2, some e)
  | .ok m =>
    let result := match gui with
      | none => some m
      | some g => g m
    match result with
    | none => (fitted.2, none)
    | some m => (if evaluate then .values (w.eval m) else .model m, none)

/-! ## Specification -/

/-- The model a call starts from: the one given, the one held, or the default. -/
def Starts (w : World M A) (model : Arg M) (cont : Cont M A) (m : M) : Prop :=
  (model = .object m) ∨ (∃ s, model = .named s ∧ w.byName s = some m) ∨
  (model = .none ∧ cont = .none ∧ w.byName "uniformknotspline" = some m) ∨ (model = .none ∧ cont = .model m)

/-- **C227.** A call that is not interactive sets the continuum to the fit of the model it starts from, or to the values of that fit, and succeeds exactly if there is
such a model; otherwise the continuum stays as it was. -/
theorem not_interactive (w : World M A) (model : Arg M) (weighted evaluate : Bool) (cont : Cont M A) :
    (∀ m, Starts w model cont m → fitContinuum w model weighted evaluate none cont =
      (if evaluate then Cont.values (w.eval (w.fit weighted m)) else Cont.model (w.fit weighted m), none)) ∧
    ((¬ ∃ m, Starts w model cont m) → (fitContinuum w model weighted evaluate none cont).1 = cont ∧
      (fitContinuum w model weighted evaluate none cont).2 ≠ none) := by
  constructor
  · rintro m (rfl | ⟨s, rfl, h⟩ | ⟨rfl, rfl, h⟩ | ⟨rfl, rfl⟩)
    · rfl
    · simp [fitContinuum, h]
    · simp [fitContinuum, h]
    · rfl
  · intro h
    cases model with
    | none =>
      cases cont with
      | none =>
        cases hb : w.byName "uniformknotspline" with
        | none => simp [fitContinuum, hb]
        | some m => exact absurd ⟨m, Or.inr (Or.inr (Or.inl ⟨rfl, rfl, hb⟩))⟩ h
      | model m => exact absurd ⟨m, Or.inr (Or.inr (Or.inr ⟨rfl, rfl⟩))⟩ h
      | values a => exact ⟨rfl, by simp [fitContinuum]⟩
    | named s =>
      cases hb : w.byName s with
      | none => simp [fitContinuum, hb]
      | some m => exact absurd ⟨m, Or.inr (Or.inl ⟨s, rfl, hb⟩)⟩ h
    | object m => exact absurd ⟨m, Or.inl rfl⟩ h
    | unfit => exact ⟨rfl, by simp [fitContinuum]⟩

/-- **C227.** A cancelled window leaves the continuum as it was; an accepted one sets it to what the user made of the model shown, which is the fit — except for the
model already held, which is shown as it is. -/
theorem interactive (w : World M A) (model : Arg M) (weighted evaluate : Bool) (g : M → Option M) (cont : Cont M A) (m : M)
    (h : Starts w model cont m) :
    ∃ shown, ((model = .none → cont = .model m → shown = m) ∧ ((model ≠ .none ∨ cont = .none) → shown = w.fit weighted m)) ∧
      (g shown = none → fitContinuum w model weighted evaluate (some g) cont = (cont, none)) ∧
      ∀ r, g shown = some r → fitContinuum w model weighted evaluate (some g) cont =
        (if evaluate then Cont.values (w.eval r) else Cont.model r, none) := by
  rcases h with rfl | ⟨s, rfl, h⟩ | ⟨rfl, rfl, h⟩ | ⟨rfl, rfl⟩
  · refine ⟨w.fit weighted m, ⟨(by intro h; cases h), fun _ => rfl⟩, fun hg => by simp [fitContinuum, hg], fun r hg => by simp [fitContinuum, hg]⟩
  · refine ⟨w.fit weighted m, ⟨(by intro h; cases h), fun _ => rfl⟩, fun hg => by simp [fitContinuum, h, hg], fun r hg => by simp [fitContinuum, h, hg]⟩
  · refine ⟨w.fit weighted m, ⟨(by intro _ h; cases h), fun _ => rfl⟩, fun hg => by simp [fitContinuum, h, hg], fun r hg => by simp [fitContinuum, h, hg]⟩
  · refine ⟨m, ⟨fun _ _ => rfl, ?_⟩, fun hg => by simp [fitContinuum, hg], fun r hg => by simp [fitContinuum, hg]⟩
    rintro (h | h)
    · exact absurd rfl h
    · cases h

/-- A call of a session. -/
structure Call (M : Type) where
  model : Arg M
  weighted : Bool
  evaluate : Bool
  gui : Option (M → Option M)

/-- The continuum after a list of calls, whether they raise or not. -/
def session (w : World M A) (cont : Cont M A) (cs : List (Call M)) : Cont M A :=
  cs.foldl (fun c x => (fitContinuum w x.model x.weighted x.evaluate x.gui c).1) cont

/-- **C227.** Once the continuum has been evaluated, every call without a model raises `AttributeError` and leaves it, however many there are, interactive or not:
a model has to be named again. -/
theorem evaluated_stuck (w : World M A) (a : A) (cs : List (Call M)) (h : ∀ c ∈ cs, c.model matches .none) :
    session w (.values a) cs = .values a ∧
    ∀ weighted evaluate gui, (fitContinuum w .none weighted evaluate gui (.values a)).2 = some .attribute := by
  refine ⟨?_, fun _ _ _ => rfl⟩
  induction cs with
  | nil => rfl
  | cons c cs ih =>
    have hc := h c List.mem_cons_self
    have : (fitContinuum w c.model c.weighted c.evaluate c.gui (.values a)).1 = .values a := by
      cases hm : c.model with
      | none => rfl
      | named s => rw [hm] at hc; cases hc
      | object m => rw [hm] at hc; cases hc
      | unfit => rw [hm] at hc; cases hc
    unfold session at ih ⊢
    rw [List.foldl_cons, this]
    exact ih fun x hx => h x (List.mem_cons_of_mem _ hx)

/-- **C227.** A call naming a model forgets all earlier ones: after it the continuum is the same whatever the history was. -/
theorem history_forgotten (w : World M A) (cs cs' : List (Call M)) (cont cont' : Cont M A) (s : String) (m : M) (hs : w.byName s = some m)
    (weighted evaluate : Bool) :
    session w cont (cs ++ [⟨.named s, weighted, evaluate, none⟩]) = session w cont' (cs' ++ [⟨.named s, weighted, evaluate, none⟩]) := by
  simp only [session, List.foldl_append, List.foldl_cons, List.foldl_nil]
  simp [fitContinuum, hs]

/-- **C227.** Refits without a model, not evaluated, fit the same model again and again. -/
theorem refits (w : World M A) (m : M) (weighted : Bool) (n : ℕ) :
    session w (.model m) (List.replicate n ⟨.none, weighted, false, none⟩) = .model ((w.fit weighted)^[n] m) := by
  induction n generalizing m with
  | zero => rfl
  | succ n ih => exact ih (w.fit weighted m)

/-! ## Concrete cases -/

/-- Models are numbers, a fit adds one (ten if weighted), an evaluation doubles. -/
def toy : World ℕ ℕ := ⟨fun s => if s = "uniformknotspline" then some 0 else none, fun b n => if b then n + 10 else n + 1, fun n => 2 * n⟩

example : session toy .none [⟨.none, true, false, none⟩, ⟨.none, false, false, none⟩, ⟨.none, false, true, some fun n => some (n + 100)⟩] = .values 222 := by decide

example : Starts toy .none .none 0 ∧ ¬ ∃ m, Starts toy (.named "x") .none m := by
  refine ⟨Or.inr (Or.inr (Or.inl ⟨rfl, rfl, rfl⟩)), ?_⟩
  rintro ⟨m, h | ⟨s, h, h'⟩ | ⟨h, _⟩ | ⟨h, _⟩⟩
  · cases h
  · cases h; simp [toy] at h'
  · cases h
  · cases h

end Verif.FitContinuum
