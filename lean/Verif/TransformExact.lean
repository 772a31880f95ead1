import Verif.TransformProps
import Mathlib.Algebra.Group.Nat.Defs
import Mathlib.Algebra.Group.TypeTags.Basic

/-!
# C58, C59: exactly which paths and decorator stacks are right
-/

namespace Verif.Transform

/-! ## C58 -/

/-- Is the leg a matrix transform? -/
def Leg.isMatrix {M Obj : Type} : Leg M Obj → Bool
  | .smatrix _ => true
  | .other _ => false

/-- A path (as its list of "is a matrix transform") in which no other transform follows a matrix one. -/
def MatricesLast (shape : List Bool) : Prop := shape.Pairwise (fun a b => a = true → b = true)

theorem legs_split {M O : Type} : ∀ (path : List (Leg M O)), MatricesLast (path.map Leg.isMatrix) →
    ∃ (fs : List (O → O)) (ms : List M), path = fs.map Leg.other ++ ms.map Leg.smatrix := by
  intro path
  induction path with
  | nil => intro _; exact ⟨[], [], rfl⟩
  | cons l ls ih =>
    intro h
    have h' := List.pairwise_cons.mp h
    obtain ⟨fs, ms, hls⟩ := ih h'.2
    cases l with
    | other f => exact ⟨f :: fs, ms, by rw [hls]; rfl⟩
    | smatrix m =>
      cases fs with
      | nil => exact ⟨[], m :: ms, by rw [hls]; rfl⟩
      | cons f fs =>
        have := h'.1 false (by rw [hls]; simp [Leg.isMatrix]) rfl
        cases this

/-- Counting interpretation: a matrix transform adds one, another transform nothing. -/
def countLegs (shape : List Bool) : List (Leg (Multiplicative Nat) Nat) :=
  shape.map (fun b => if b then .smatrix (Multiplicative.ofAdd 1) else .other id)

theorem countLegs_false (bs : List Bool) : countLegs (false :: bs) = .other id :: countLegs bs := rfl

/-- A matrix of the counting interpretation adds its number. -/
def addM (m : Multiplicative Nat) (o : Nat) : Nat := m.toAdd + o

theorem combine_ge : ∀ (shape : List Bool) (c : Multiplicative Nat) (o : Nat),
    o + c.toAdd + shape.count true ≤ applyLegs addM (combine (some c) (countLegs shape)) o ∧
    (false ∈ shape → 0 < c.toAdd → o + c.toAdd + shape.count true < applyLegs addM (combine (some c) (countLegs shape)) o) := by
  intro shape
  induction shape with
  | nil => intro c o; simp [countLegs, combine, applyLegs, addM, Nat.add_comm]
  | cons b bs ih =>
    intro c o
    cases b with
    | true =>
      have := ih (Multiplicative.ofAdd 1 * c) o
      simp only [countLegs, List.map_cons, if_true, combine, toAdd_mul, toAdd_ofAdd] at this ⊢
      refine ⟨by simp; omega, fun h hc => ?_⟩
      have := this.2 (by simpa using h) (by omega)
      simp; omega
    | false =>
      have := ih c (c.toAdd + o)
      simp only [countLegs_false, combine, applyLegs, id, addM] at this ⊢
      refine ⟨by simp; omega, fun h hc => ?_⟩
      have := this.1
      simp; omega

theorem count_step : ∀ (shape : List Bool) (o : Nat), applyLegs addM (countLegs shape) o = o + shape.count true := by
  intro shape
  induction shape with
  | nil => intro o; rfl
  | cons b bs ih =>
    intro o
    cases b with
    | true =>
      have := ih (1 + o)
      simp only [countLegs, List.map_cons, if_true, applyLegs, addM, toAdd_ofAdd] at this ⊢
      rw [this]; simp; omega
    | false =>
      have := ih o
      simp only [countLegs_false, applyLegs, id]
      simpa using this

theorem combine_none_gt : ∀ (shape : List Bool) (o : Nat), ¬ MatricesLast shape →
    applyLegs addM (countLegs shape) o < applyLegs addM (combine none (countLegs shape)) o := by
  intro shape
  induction shape with
  | nil => intro o h; exact absurd List.Pairwise.nil h
  | cons b bs ih =>
    intro o h
    cases b with
    | false =>
      have h' : ¬ MatricesLast bs := fun hb => h (List.pairwise_cons.mpr ⟨fun _ _ hf => absurd hf (by decide), hb⟩)
      have := ih o h'
      simpa [countLegs, combine, applyLegs] using this
    | true =>
      have hf : false ∈ bs := by
        by_contra hf
        apply h
        have hall : ∀ x ∈ bs, x = true := by
          intro x hx; cases x
          · exact absurd hx hf
          · rfl
        refine List.pairwise_cons.mpr ⟨fun x hx _ => hall x hx, ?_⟩
        exact List.Pairwise.imp_of_mem (R := fun _ _ => True) (fun {a b} _ hb _ _ => hall b hb)
          (List.pairwise_of_forall (fun _ _ => trivial))
      have h1 := (combine_ge bs (Multiplicative.ofAdd 1) o).2 hf (by simp)
      have h2 := count_step (true :: bs) o
      rw [h2]
      simp only [countLegs, List.map_cons, if_true, combine, toAdd_ofAdd] at h1 ⊢
      simp; omega

/-- **C58**, exactly: combining the matrices gives the result of converting step by step for all transforms of a path of a given
shape iff no other transform follows a matrix transform in it. -/
theorem optimized_right_iff (shape : List Bool) :
    (∀ (M O : Type) (_ : Mul M) (applyM : M → O → O), (∀ m2 m1 o, applyM (m2 * m1) o = applyM m2 (applyM m1 o)) →
      ∀ (path : List (Leg M O)), path.map Leg.isMatrix = shape →
        ∀ o, convertOptimized applyM path o = applyLegs applyM path o) ↔ MatricesLast shape := by
  constructor
  · intro h
    by_contra hc
    have h1 := combine_none_gt shape 0 hc
    have h2 := h (Multiplicative Nat) Nat inferInstance addM
      (fun m2 m1 o => by simp [addM, toAdd_mul, Nat.add_assoc]) (countLegs shape)
      (by
        simp only [countLegs, List.map_map]
        conv => rhs; rw [← List.map_id shape]
        apply List.map_congr_left
        intro b _
        cases b <;> rfl) 0
    unfold convertOptimized at h2
    omega
  · intro hs M O _ applyM hlaw path hp o
    obtain ⟨fs, ms, rfl⟩ := legs_split path (by rw [hp]; exact hs)
    exact optimized_correct applyM hlaw fs ms o

/-- Both kinds of shapes exist. -/
example : MatricesLast [false, true, true] ∧ ¬ MatricesLast [true, false] := by
  refine ⟨by unfold MatricesLast; decide, by unfold MatricesLast; decide⟩

/-! ## C59 -/

/-- **C59**, exactly, for any number of stacked decorators: the method is registered for the pairs of all its decorators iff there
is at most one; with two nothing is registered, with more the class definition raises. -/
theorem stack_exact {Cls : Type} (ps : List (Cls × Cls)) :
    (stack ps).map registered = if ps.length ≤ 2 then some (if ps.length = 1 then ps else []) else none := by
  match ps with
  | [] => rfl
  | [p] => rfl
  | [p, q] => rfl
  | p :: q :: r :: rest =>
    have : ∀ (l : List (Cls × Cls)), 3 ≤ l.length → stack l = none := by
      intro l
      induction l with
      | nil => intro h; simp at h
      | cons a l ih =>
        intro h
        by_cases hl : 3 ≤ l.length
        · simp [stack, ih hl]
        · have h2 : l.length = 2 := by simp at h; omega
          obtain ⟨b, c, rfl⟩ := List.length_eq_two.mp h2
          rfl
    rw [this _ (by simp), if_neg (by simp)]; rfl

theorem stack_right_iff {Cls : Type} (ps : List (Cls × Cls)) : (stack ps).map registered = some ps ↔ ps.length ≤ 1 := by
  rw [stack_exact]
  match ps with
  | [] => simp
  | [p] => simp
  | [p, q] => simp
  | p :: q :: r :: rest => simp

end Verif.Transform
