import Mathlib.Data.List.Basic
import Mathlib.Data.List.Forall2
import Mathlib.Tactic.SplitIfs

/-!
# Fluxes and magnitudes of a spectrum in bands (astropysics/spec.py 765-814) (C246)

The registry's `getObjects` (phot.py 3644; modelled in Verif.Registry) and the fluxes and magnitudes of single bands (Verif.PhotBand) are parameters here.
-/

namespace Verif.SpecFlux

inductive Err
  | name | value | key | other
  deriving DecidableEq, Repr

/-- The argument `bands`: a text, a band, or a sequence of either. -/
inductive Arg (B : Type)
  | str (s : String)
  | band (b : B)
  | seq (l : List (String ⊕ B))

/-- The result: a single number, or a list. -/
inductive Res (V : Type)
  | one (v : V)
  | many (l : List V)
  deriving DecidableEq, Repr

/-- `[f(b) for b in bands]`. -/
def each {B V : Type} (f : B → Except Err V) : List B → Except Err (List V)
  | [] => .ok []
  | b :: bs => match f b with
    | .error e => .error e
    | .ok v => match each f bs with
      | .error e => .error e
      | .ok vs => .ok (v :: vs)

/-- `phot` is no name of the module spec.py (it only imports from it, inside functions): its value. -/
def photName : Option Unit := none

/-- `Spectrum.computeFlux(bands,**kwargs)`, spec.py 778-814; `kw` are the keywords without `__domags`, which is `domags`. -/
def computeFlux {B V K : Type} (objs : Arg B → Except Err (List B)) (flux mag : B → K → Except Err V) (bands : Arg B) (kw : K) (domags : Bool) : Except Err (Res V) :=
  let scalar : Except Err Bool := match bands with
    | .str _ => .ok true
    | .band _ => match photName with
      | none => .error .name
      | some _ => .ok true
    | .seq _ => match photName with
      | none => .error .name
      | some _ => .ok false
  match scalar with
  | .error e => .error e
  | .ok scalar => match objs bands with
    | .error e => .error e
    | .ok bs => match each (fun b => if domags = true then mag b kw else flux b kw) bs with
      | .error e => .error e
      | .ok [v] => if scalar = true then .ok (.one v) else .ok (.many [v])
      | .ok vs => .ok (.many vs)

/-- `Spectrum.computeMag(bands,**kwargs)`, spec.py 765-775. -/
def computeMag {B V K : Type} (objs : Arg B → Except Err (List B)) (flux mag : B → K → Except Err V) (bands : Arg B) (kw : K) : Except Err (Res V) :=
  computeFlux objs flux mag bands kw true

theorem each_ok {B V : Type} (f : B → Except Err V) : ∀ (l : List B) (vs : List V), each f l = .ok vs ↔ List.Forall₂ (fun b v => f b = .ok v) l vs
  | [], vs => by
    constructor
    · intro h; cases h; exact .nil
    · intro h; cases h; rfl
  | b :: l, vs => by
    constructor
    · intro h
      simp only [each] at h
      cases hb : f b with
      | error e => rw [hb] at h; cases h
      | ok v =>
        rw [hb] at h
        cases hr : each f l with
        | error e => simp only [hr] at h; cases h
        | ok ws =>
          simp only [hr] at h
          cases h
          exact .cons hb ((each_ok f l ws).1 hr)
    · intro h
      cases h with
      | @cons _ v _ ws h1 h2 =>
        have := (each_ok f l ws).2 h2
        simp only [each, h1, this]

theorem each_error {B V : Type} (f : B → Except Err V) (e : Err) : ∀ l : List B,
    each f l = .error e ↔ ∃ p b s, l = p ++ b :: s ∧ (∀ x ∈ p, ∃ v, f x = .ok v) ∧ f b = .error e
  | [] => by
    constructor
    · intro h; cases h
    · rintro ⟨p, b, s, h, -⟩; cases p <;> cases h
  | b :: l => by
    simp only [each]
    cases hb : f b with
    | error e' =>
      constructor
      · intro h; cases h; exact ⟨[], b, l, rfl, by simp, hb⟩
      · rintro ⟨p, c, s, h, hp, hc⟩
        cases p with
        | nil => cases h; rw [hb] at hc; cases hc; rfl
        | cons x p =>
          cases h
          obtain ⟨v, hv⟩ := hp b List.mem_cons_self
          rw [hb] at hv; cases hv
    | ok v =>
      have ih := each_error f e l
      cases hr : each f l with
      | error e' =>
        rw [hr] at ih
        refine Iff.trans (b := (Except.error e' : Except Err (List V)) = .error e) ⟨fun h => by cases h; rfl, fun h => by cases h; rfl⟩ (ih.trans ?_)
        constructor
        · rintro ⟨p, c, s, rfl, hp, hc⟩
          refine ⟨b :: p, c, s, rfl, ?_, hc⟩
          intro x hx
          rcases List.mem_cons.1 hx with rfl | hx
          · exact ⟨v, hb⟩
          · exact hp x hx
        · rintro ⟨p, c, s, h, hp, hc⟩
          cases p with
          | nil => cases h; rw [hb] at hc; cases hc
          | cons x p => cases h; exact ⟨p, c, s, rfl, fun y hy => hp y (List.mem_cons_of_mem _ hy), hc⟩
      | ok vs =>
        rw [hr] at ih
        constructor
        · intro h; cases h
        · rintro ⟨p, c, s, h, hp, hc⟩
          cases p with
          | nil => cases h; rw [hb] at hc; cases hc
          | cons x p =>
            cases h
            have := ih.2 ⟨p, c, s, rfl, fun y hy => hp y (List.mem_cons_of_mem _ hy), hc⟩
            cases this

/-- **C246.** Bands given as a text: the fluxes (or the magnitudes) of the bands it stands for, in their order; a number, and not a list, exactly if there is one
band. -/
theorem texts {B V K : Type} (objs : Arg B → Except Err (List B)) (flux mag : B → K → Except Err V) (s : String) (kw : K) (bs : List B) (h : objs (.str s) = .ok bs) :
    (∀ v, computeFlux objs flux mag (.str s) kw false = .ok (.one v) ↔ ∃ b, bs = [b] ∧ flux b kw = .ok v) ∧
    (∀ vs, computeFlux objs flux mag (.str s) kw false = .ok (.many vs) ↔ bs.length ≠ 1 ∧ List.Forall₂ (fun b v => flux b kw = .ok v) bs vs) ∧
    (∀ v, computeMag objs flux mag (.str s) kw = .ok (.one v) ↔ ∃ b, bs = [b] ∧ mag b kw = .ok v) ∧
    (∀ vs, computeMag objs flux mag (.str s) kw = .ok (.many vs) ↔ bs.length ≠ 1 ∧ List.Forall₂ (fun b v => mag b kw = .ok v) bs vs) := by
  have key : ∀ (d : Bool) (f : B → Except Err V), (fun b => if d = true then mag b kw else flux b kw) = f →
      (∀ v, computeFlux objs flux mag (.str s) kw d = .ok (.one v) ↔ ∃ b, bs = [b] ∧ f b = .ok v) ∧
      (∀ vs, computeFlux objs flux mag (.str s) kw d = .ok (.many vs) ↔ bs.length ≠ 1 ∧ List.Forall₂ (fun b v => f b = .ok v) bs vs) := by
    intro d f hf
    simp only [computeFlux, h, hf]
    have hlen : ∀ ws, each f bs = .ok ws → bs.length = ws.length := fun ws hw => ((each_ok f bs ws).1 hw).length_eq
    cases hr : each f bs with
    | error e =>
      refine ⟨fun v => ⟨fun h => (by cases h), ?_⟩, fun vs => ⟨fun h => (by cases h), ?_⟩⟩
      · rintro ⟨b, rfl, hb⟩
        simp only [each, hb] at hr
        cases hr
      · rintro ⟨-, h2⟩
        rw [(each_ok f bs vs).2 h2] at hr
        cases hr
    | ok ws =>
      have hl := hlen ws hr
      have ho := (each_ok f bs ws).1 hr
      match ws, hr, hl, ho with
      | [w], hr, hl, ho =>
        obtain ⟨b, rfl⟩ := List.length_eq_one_iff.1 hl
        have hb : f b = .ok w := by cases ho with | cons h _ => exact h
        refine ⟨fun v => ⟨fun h => ?_, ?_⟩, fun vs => ⟨fun h => by simp at h, fun h => absurd rfl h.1⟩⟩
        · have : w = v := by simpa using h
          exact ⟨b, rfl, this ▸ hb⟩
        · rintro ⟨b', h1, h2⟩
          cases h1
          rw [hb] at h2
          cases h2
          rfl
      | [], hr, hl, ho =>
        have : bs = [] := List.length_eq_zero_iff.1 hl
        subst this
        refine ⟨fun v => ⟨fun h => by simp at h, ?_⟩, fun vs => ⟨fun h => ?_, ?_⟩⟩
        · rintro ⟨b, h, -⟩; cases h
        · have : [] = vs := by simpa using h
          subst this
          exact ⟨by simp, .nil⟩
        · rintro ⟨-, h⟩; cases h; rfl
      | w :: w' :: ws, hr, hl, ho =>
        refine ⟨fun v => ⟨fun h => by simp at h, ?_⟩, fun vs => ⟨fun h => ?_, ?_⟩⟩
        · rintro ⟨b, rfl, -⟩; simp at hl
        · have : w :: w' :: ws = vs := by simpa using h
          subst this
          exact ⟨by rw [hl]; simp, ho⟩
        · rintro ⟨-, h⟩
          have := (each_ok f bs vs).2 h
          rw [hr] at this
          cases this
          rfl
  have a := key false (fun b => flux b kw) (by simp)
  have b := key true (fun b => mag b kw) (by simp)
  exact ⟨a.1, a.2, b.1, b.2⟩

/-- **C246.** It fails with the error of the registry, or that of the first band that fails. -/
theorem fails {B V K : Type} (objs : Arg B → Except Err (List B)) (flux mag : B → K → Except Err V) (s : String) (kw : K) (e : Err) :
    (objs (.str s) = .error e → computeFlux objs flux mag (.str s) kw false = .error e ∧ computeMag objs flux mag (.str s) kw = .error e) ∧
    (∀ p b q, objs (.str s) = .ok (p ++ b :: q) → (∀ x ∈ p, ∃ v, flux x kw = .ok v) → flux b kw = .error e → computeFlux objs flux mag (.str s) kw false = .error e) ∧
    (∀ p b q, objs (.str s) = .ok (p ++ b :: q) → (∀ x ∈ p, ∃ v, mag x kw = .ok v) → mag b kw = .error e → computeMag objs flux mag (.str s) kw = .error e) := by
  refine ⟨fun h => ?_, fun p b q h hp hb => ?_, fun p b q h hp hb => ?_⟩
  · simp only [computeFlux, computeMag, h, and_self]
  · have := (each_error (fun b => flux b kw) e (p ++ b :: q)).2 ⟨p, b, q, rfl, hp, hb⟩
    simp [computeFlux, h, this]
  · have := (each_error (fun b => mag b kw) e (p ++ b :: q)).2 ⟨p, b, q, rfl, hp, hb⟩
    simp [computeMag, computeFlux, h, this]

/-- **C246.** A band, and a sequence of bands or names, which the documentation asks for, are a NameError, whatever they are. -/
theorem only_texts {B V K : Type} (objs : Arg B → Except Err (List B)) (flux mag : B → K → Except Err V) (kw : K) (d : Bool) :
    (∀ b, computeFlux objs flux mag (.band b) kw d = .error .name ∧ computeMag objs flux mag (.band b) kw = .error .name) ∧
    (∀ l, computeFlux objs flux mag (.seq l) kw d = .error .name ∧ computeMag objs flux mag (.seq l) kw = .error .name) :=
  ⟨fun _ => ⟨rfl, rfl⟩, fun _ => ⟨rfl, rfl⟩⟩

/-! ## Concrete cases -/

/-- A registry with two bands, 1 and 2. -/
def demo : Arg ℕ → Except Err (List ℕ)
  | .str "V" => .ok [1]
  | .str "UV" => .ok [2, 1]
  | _ => .error .key

example : computeFlux (K := Unit) demo (fun b _ => .ok (10 * b)) (fun b _ => .ok (20 * b)) (.str "V") () false = .ok (.one 10) := rfl
example : computeMag (K := Unit) demo (fun b _ => .ok (10 * b)) (fun b _ => .ok (20 * b)) (.str "UV") () = .ok (.many [40, 20]) := rfl
example : computeFlux (K := Unit) (V := ℕ) demo (fun b _ => .ok (10 * b)) (fun b _ => .ok (20 * b)) (.seq [.inr 1]) () false = .error .name := rfl

end Verif.SpecFlux
