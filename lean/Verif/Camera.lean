import Mathlib.Analysis.SpecialFunctions.Sqrt
import Mathlib.Data.Sign.Basic
import Mathlib.Data.List.Induction
import Mathlib.Tactic.Linarith
import Mathlib.Tactic.FieldSimp
import Mathlib.Tactic.Ring
import Mathlib.Tactic.NormNum
import Mathlib.Tactic.Positivity

/-!
# Camera and stereo modes (astropysics/plotting.py, `mlab_anaglyph`, `mlab_checkerboard`, `mlab_camera`, 1246-1329) (C236)

Exact real arithmetic; Mayavi's scene is its camera, the number of times it was drawn, and the stereo mode of its window.
-/

namespace Verif.Camera

inductive Err
  | value
  deriving DecidableEq

/-- A vector. -/
abbrev V := ℝ × ℝ × ℝ

/-- The scene: focal point (`none` if its components are not numbers), position, angle of view, how often it was drawn. -/
structure Scene where
  fp : Option V
  pos : V
  angle : ℝ
  renders : ℕ

/-- The argument `fp`: nothing, a number, or a sequence. -/
inductive Fp
  | none
  | num (r : ℝ)
  | seq (l : List ℝ)

noncomputable def scale (k : ℝ) (v : V) : V := (k * v.1, k * v.2.1, k * v.2.2)

noncomputable def norm (v : V) : ℝ := Real.sqrt (v.1 * v.1 + v.2.1 * v.2.1 + v.2.2 * v.2.2)

/-- `fp*normedfp` (plotting.py:1310-1312): at the origin 0 times infinity. -/
noncomputable def along (r : ℝ) : Option V → Option V
  | none => none
  | some v => open Classical in if norm v = 0 then none else some (scale (r * (norm v)⁻¹) v)

/-- The focal point (plotting.py:1304-1312): every failure of the first attempt - a number, or a sequence not of three - leads to the second, in which a
sequence of one counts as a number and any other cannot be multiplied with the old point. -/
noncomputable def setFp (old : Option V) : Fp → Except Err (Option V)
  | .none => .ok old
  | .num r => .ok (along r old)
  | .seq [a, b, c] => .ok (some (a, b, c))
  | .seq [r] => .ok (along r old)
  | .seq _ => .error .value

/-- `mlab_camera(fp, pos, angle, dorender)` (plotting.py:1291-1329). -/
noncomputable def camera (s : Scene) (fp : Fp) (pos : Option (List ℝ)) (angle : Option ℝ) (dorender : Bool) : Scene × Except Err Unit :=
  match setFp s.fp fp with
  | .error e => (s, .error e)
  | .ok f =>
    let s := { s with fp := f }
    let fin (s : Scene) : Scene × Except Err Unit :=
      ({ s with angle := angle.getD s.angle, renders := if dorender then s.renders + 1 else s.renders }, .ok ())
    match pos with
    | none => fin s
    | some [a, b, c] => fin { s with pos := (a, b, c) }
    | some _ => (s, .error .value)

/-- A window: kind of stereo, and whether it is on. -/
structure Win where
  kind : String
  on : Bool
  deriving DecidableEq

/-- `mlab_anaglyph` and `mlab_checkerboard` (plotting.py:1256-1289): with `None` a local variable gets the other value. -/
def stereo (w : Win) (call : String × Option Bool) : Win := match call.2 with
  | none => { w with kind := call.1 }
  | some b => ⟨call.1, b⟩

/-! ## Theorems -/

theorem norm_nonneg (v : V) : 0 ≤ norm v := Real.sqrt_nonneg _

theorem norm_scale (k : ℝ) (v : V) : norm (scale k v) = |k| * norm v := by
  unfold norm scale
  have : k * v.1 * (k * v.1) + k * v.2.1 * (k * v.2.1) + k * v.2.2 * (k * v.2.2) = k ^ 2 * (v.1 * v.1 + v.2.1 * v.2.1 + v.2.2 * v.2.2) := by ring
  simp only [this]
  rw [Real.sqrt_mul (sq_nonneg k), Real.sqrt_sq_eq_abs]

theorem norm_zero (v : V) : norm v = 0 ↔ v = (0, 0, 0) := by
  obtain ⟨a, b, c⟩ := v
  unfold norm
  rw [Real.sqrt_eq_zero (add_nonneg (add_nonneg (mul_self_nonneg _) (mul_self_nonneg _)) (mul_self_nonneg _))]
  constructor
  · intro h
    simp only at h
    have ha : a * a = 0 := by linarith [mul_self_nonneg a, mul_self_nonneg b, mul_self_nonneg c]
    have hb : b * b = 0 := by linarith [mul_self_nonneg a, mul_self_nonneg b, mul_self_nonneg c]
    have hc : c * c = 0 := by linarith [mul_self_nonneg a, mul_self_nonneg b, mul_self_nonneg c]
    rw [mul_self_eq_zero.1 ha, mul_self_eq_zero.1 hb, mul_self_eq_zero.1 hc]
  · intro h
    obtain ⟨rfl, rfl, rfl⟩ : a = 0 ∧ b = 0 ∧ c = 0 := by simpa using h
    simp

/-- **C236.** Three numbers become the focal point; a number moves it to that distance from the origin, in its old direction (a negative one: in the opposite). -/
theorem focal (s : Scene) (pos : Option (List ℝ)) (angle : Option ℝ) (d : Bool) (h : ∀ l, pos = some l → l.length = 3) :
    (∀ a b c, (camera s (.seq [a, b, c]) pos angle d).1.fp = some (a, b, c)) ∧
    (∀ r v, s.fp = some v → v ≠ (0, 0, 0) → ∃ w, (camera s (.num r) pos angle d).1.fp = some w ∧ norm w = |r| ∧ (0 < r → ∃ k > 0, w = scale k v) ∧
      (r < 0 → ∃ k < 0, w = scale k v)) ∧
    (∀ fp, (∀ l, fp = .seq l → l.length = 3 ∨ l.length = 1) → (camera s fp pos angle d).2 = .ok () ∧
      (camera s fp pos angle d).1.angle = angle.getD s.angle ∧ (camera s fp pos angle d).1.renders = s.renders + (if d then 1 else 0) ∧
      (pos = none → (camera s fp pos angle d).1.pos = s.pos) ∧ (∀ a b c, pos = some [a, b, c] → (camera s fp pos angle d).1.pos = (a, b, c))) := by
  have hp : pos = none ∨ ∃ a b c, pos = some [a, b, c] := by
    cases pos with
    | none => exact .inl rfl
    | some l =>
      right
      match l, h l rfl with
      | [a, b, c], _ => exact ⟨a, b, c, rfl⟩
  have ok : ∀ fp f, setFp s.fp fp = .ok f → (camera s fp pos angle d).1.fp = f ∧ (camera s fp pos angle d).2 = .ok () ∧
      (camera s fp pos angle d).1.angle = angle.getD s.angle ∧ (camera s fp pos angle d).1.renders = s.renders + (if d then 1 else 0) ∧
      (pos = none → (camera s fp pos angle d).1.pos = s.pos) ∧ (∀ a b c, pos = some [a, b, c] → (camera s fp pos angle d).1.pos = (a, b, c)) := by
    intro fp f hf
    rcases hp with rfl | ⟨a, b, c, rfl⟩
    · simp only [camera, hf, true_and]
      exact ⟨by cases d <;> rfl, fun _ => trivial, by simp⟩
    · simp only [camera, hf, true_and]
      refine ⟨by cases d <;> rfl, by simp, ?_⟩
      intro a' b' c' he
      simp at he
      simp [he]
  refine ⟨fun a b c => (ok _ _ rfl).1, ?_, ?_⟩
  · intro r v hv h0
    have hn : norm v ≠ 0 := fun h => h0 ((norm_zero v).1 h)
    have hnp : 0 < norm v := lt_of_le_of_ne (norm_nonneg v) (Ne.symm hn)
    refine ⟨scale (r * (norm v)⁻¹) v, ?_, ?_, ?_, ?_⟩
    · rw [(ok (.num r) _ rfl).1, hv]
      simp only [along]
      rw [if_neg hn]
    · rw [norm_scale, abs_mul, abs_of_pos (inv_pos.2 hnp), mul_assoc, inv_mul_cancel₀ hn, mul_one]
    · intro hr; exact ⟨_, mul_pos hr (inv_pos.2 hnp), rfl⟩
    · intro hr; exact ⟨_, mul_neg_of_neg_of_pos hr (inv_pos.2 hnp), rfl⟩
  · intro fp hfp
    have : ∃ f, setFp s.fp fp = .ok f := by
      cases fp with
      | none => exact ⟨_, rfl⟩
      | num r => exact ⟨_, rfl⟩
      | seq l =>
        match l, hfp l rfl with
        | [r], _ => exact ⟨_, rfl⟩
        | [a, b, c], _ => exact ⟨_, rfl⟩
    obtain ⟨f, hf⟩ := this
    exact (ok fp f hf).2

/-- Any number of calls with a number. -/
noncomputable def moves (o : Option V) (rs : List ℝ) : Option V := rs.foldl (fun o r => along r o) o

/-- **C236.** After any number of calls with numbers other than 0 only the last one's size and the signs of all of them matter: the focal point is on the line through
the origin and the point first set, at the last distance. -/
theorem moves_exact (v : V) (h0 : v ≠ (0, 0, 0)) (rs : List ℝ) (r : ℝ) (h : ∀ q ∈ rs, q ≠ 0) :
    moves (some v) (rs ++ [r]) = some (scale (r * (rs.map fun q => (SignType.sign q : ℝ)).prod * (norm v)⁻¹) v) := by
  have hn : norm v ≠ 0 := fun h => h0 ((norm_zero v).1 h)
  have hnp : 0 < norm v := lt_of_le_of_ne (norm_nonneg v) (Ne.symm hn)
  induction rs using List.reverseRecOn generalizing r with
  | nil => simp [moves, along, hn]
  | append_singleton rs q ih =>
    have hq : q ≠ 0 := h q (by simp)
    have ih' := ih q fun p hp => h p (by simp [hp])
    have hs : ∀ l : List ℝ, (∀ p ∈ l, p ≠ 0) → |(l.map fun p => (SignType.sign p : ℝ)).prod| = 1 := by
      intro l
      induction l with
      | nil => intro _; simp
      | cons a l ihl =>
        intro hl
        rw [List.map_cons, List.prod_cons, abs_mul, ihl fun p hp => hl p (by simp [hp]), mul_one]
        rcases lt_or_gt_of_ne (hl a (by simp)) with h1 | h1
        · rw [sign_neg h1]; simp
        · rw [sign_pos h1]; simp
    have hP := hs rs fun p hp => h p (by simp [hp])
    unfold moves at ih' ⊢
    rw [List.foldl_append, ih']
    simp only [List.foldl_cons, List.foldl_nil, along, List.map_append, List.map_cons, List.map_nil, List.prod_append, List.prod_singleton]
    generalize (rs.map fun p => (SignType.sign p : ℝ)).prod = P at *
    have hN : norm (scale (q * P * (norm v)⁻¹) v) = |q| := by
      rw [norm_scale, abs_mul, abs_mul, hP, mul_one, abs_of_pos (inv_pos.2 hnp), mul_assoc, inv_mul_cancel₀ hn, mul_one]
    rw [hN, if_neg (by simpa using hq)]
    congr 1
    have hk : r * |q|⁻¹ * (q * P * (norm v)⁻¹) = r * (P * (SignType.sign q : ℝ)) * (norm v)⁻¹ := by
      rcases lt_or_gt_of_ne hq with h1 | h1
      · rw [sign_neg h1, abs_of_neg h1]
        simp only [SignType.coe_neg_one]
        field_simp
      · rw [sign_pos h1, abs_of_pos h1]
        simp only [SignType.coe_one]
        field_simp
    rw [← hk]
    simp only [scale, Prod.mk.injEq]
    exact ⟨by ring, by ring, by ring⟩

/-- **C236.** A number of 0 moves the focal point to the origin; the next number makes it no point at all, and no number ever makes it one again. -/
theorem lost (v : V) (h0 : v ≠ (0, 0, 0)) : along 0 (some v) = some (0, 0, 0) ∧ (∀ r, along r (some (0, 0, 0)) = none) ∧ ∀ rs, moves none rs = none := by
  have hn : norm v ≠ 0 := fun h => h0 ((norm_zero v).1 h)
  refine ⟨by simp [along, hn, scale], ?_, ?_⟩
  · intro r
    simp [along, (norm_zero (0, 0, 0)).2 rfl]
  · intro rs
    induction rs with
    | nil => rfl
    | cons r rs ih => exact ih

/-- **C236.** A sequence not of three: of one it counts as the number, any other is a ValueError without effect. A position not of three is a ValueError too, but the
focal point has then been moved (nothing else). -/
theorem refused (s : Scene) (angle : Option ℝ) (d : Bool) : (∀ r pos, camera s (.seq [r]) pos angle d = camera s (.num r) pos angle d) ∧
    (∀ l pos, l.length ≠ 3 → l.length ≠ 1 → camera s (.seq l) pos angle d = (s, .error .value)) ∧
    (∀ fp f l, l.length ≠ 3 → setFp s.fp fp = .ok f → camera s fp (some l) angle d = ({ s with fp := f }, .error .value)) := by
  refine ⟨fun r pos => rfl, ?_, ?_⟩
  · intro l pos h3 h1
    match l, h3, h1 with
    | [], _, _ => rfl
    | [_, _], _, _ => rfl
    | _ :: _ :: _ :: _ :: _, _, _ => rfl
  · intro fp f l h3 hf
    unfold camera
    rw [hf]
    match l, h3 with
    | [], _ => rfl
    | [_], _ => rfl
    | [_, _], _ => rfl
    | _ :: _ :: _ :: _ :: _, _ => rfl

/-- **C236.** Stereo is what the last call with True or False said, whatever calls with None followed: None never toggles it. The kind is the last call's. -/
theorem never_toggles (w : Win) (cs : List (String × Option Bool)) :
    (∀ ns : List String, ((ns.map fun n => (n, none)).foldl stereo w).on = w.on) ∧
    (∀ n b, (∀ ns : List String, (((cs ++ (n, some b) :: ns.map fun n => (n, none)).foldl stereo w).on = b))) ∧
    (∀ n b, ((cs ++ [(n, b)]).foldl stereo w).kind = n) := by
  have hn : ∀ (ns : List String) (w : Win), ((ns.map fun n => (n, none)).foldl stereo w).on = w.on := by
    intro ns
    induction ns with
    | nil => intro w; rfl
    | cons n ns ih => intro w; simp only [List.map_cons, List.foldl_cons]; rw [ih]; rfl
  refine ⟨fun ns => hn ns w, ?_, ?_⟩
  · intro n b ns
    rw [List.foldl_append, List.foldl_cons, hn]
    rfl
  · intro n b
    rw [List.foldl_append]
    cases b <;> rfl

/-! ## Concrete cases -/

example : moves (some (3, 0, 4)) [-10, 5] = some (-3, 0, -4) := by
  have hn : norm (3, 0, 4) = 5 := by
    unfold norm
    rw [show ((3:ℝ) * 3 + 0 * 0 + 4 * 4) = 5 ^ 2 by norm_num, Real.sqrt_sq (by norm_num)]
  have := moves_exact (3, 0, 4) (by norm_num) [-10] 5 (by norm_num)
  rw [hn] at this
  rw [show ([-10, 5] : List ℝ) = [-10] ++ [5] from rfl, this]
  norm_num [scale, sign_neg]

example : ([("anaglyph", some true), ("checkerboard", none)].foldl stereo ⟨"", false⟩) = ⟨"checkerboard", true⟩ := by decide

end Verif.Camera
