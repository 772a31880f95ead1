import Verif.CcdImage
import Mathlib.Tactic.FieldSimp
import Mathlib.Tactic.NormNum

/-!
# CCD images: theorems (C104)
-/

namespace Verif.Ccd

/-! ## Specification -/

/-- A scaling as the class documents it: the one called linear is the identity, and those that hand the array through do not change values. -/
structure Scaling.Proper (sc : Scaling) : Prop where
  handed : sc.same = true → (∀ x, sc.tr x = x) ∧ ∃ g, sc.inv = some g ∧ ∀ x, g x = x
  named : sc.name = "linear" → sc.same = true

/-- The part of the stored image that a range selects. -/
def region (base : Arr) : Option Rng → Arr
  | none => base
  | some r => base.slice r

/-- Is a pixel of the stored image selected, and where is it in the region? -/
def selected (base : Arr) : Option Rng → ℕ → ℕ → Bool
  | none, _, _ => true
  | some r, i, j => r.inside base i j

def place (base : Arr) : Option Rng → ℕ → ℕ → ℕ × ℕ
  | none, i, j => (i, j)
  | some r, i, j => (i - r.x0 base.nx, j - r.y0 base.ny)

/-- Operations of a user on an image that do not replace its internals. -/
inductive Op where
  | activate (a : RangeArg)
  | scale (sc : Scaling)
  | scaleNone
  | edit (f : ℕ → ℕ → ℝ → ℝ)
  | stats (np : Np)
  | applyChanges

/-- The image after an operation; operations that raise before changing anything leave it as it is. -/
noncomputable def step (m : Img) : Op → Img
  | .activate a => match m.activateRange a with
    | .ok m' => m'
    | .error _ => m
  | .scale sc => match m.setScaling sc with
    | .ok m' => m'
    | .error _ => { m with scaling := sc, fstat := .none }
  | .scaleNone => match m.setScalingNone with
    | .ok m' => m'
    | .error _ => { m with scaling := linear, fstat := .none }
  | .edit f => m.edit f
  | .stats np => match m.fullStats np with
    | .ok (_, m') => m'
    | .error _ => m
  | .applyChanges => m.applyChanges.1

/-- Images that arise from a constructor by operations. -/
inductive Reach : Img → Prop where
  | create (k base r sc m) (hsc : ∀ s, sc = some s → s.Proper) (h : create k base r sc = .ok m) : Reach m
  | step (m op) (h : Reach m) (hop : ∀ sc, op = .scale sc → sc.Proper) : Reach (step m op)

theorem linear_proper : linear.Proper := ⟨fun _ => ⟨fun _ => rfl, _, rfl, fun _ => rfl⟩, fun _ => rfl⟩

/-! ## Lemmas -/

theorem setSlice_nx (a : Arr) (r : Rng) (d) : (a.setSlice r d).nx = a.nx := rfl
theorem setSlice_ny (a : Arr) (r : Rng) (d) : (a.setSlice r d).ny = a.ny := rfl

theorem slice_setSlice (a : Arr) (r : Rng) (d : ℕ → ℕ → ℝ) (i j : ℕ) (h : (a.slice r).has i j) :
    ((a.setSlice r d).slice r).px i j = d i j := by
  obtain ⟨h1, h2⟩ := h
  simp only [Arr.slice] at h1 h2
  have hin : r.inside a (r.x0 a.nx + i) (r.y0 a.ny + j) = true := by simp only [Rng.inside, decide_eq_true_eq]; omega
  show (if r.inside a (r.x0 a.nx + i) (r.y0 a.ny + j) = true then d (r.x0 a.nx + i - r.x0 a.nx) (r.y0 a.ny + j - r.y0 a.ny) else _) = _
  rw [if_pos hin, Nat.add_sub_cancel_left, Nat.add_sub_cancel_left]

theorem bound_le (n : ℕ) (i : ℤ) : bound n i ≤ n := by unfold bound; split <;> omega

theorem edit_view_none (m : Img) (f) (h : m.active = .view) (hr : m.rng = none) :
    m.edit f = { m with base := ⟨m.base.nx, m.base.ny, fun i j => f i j (m.base.px i j)⟩ } := by
  unfold Img.edit; rw [h]; simp only [hr]

theorem edit_view_some (m : Img) (f) (r) (h : m.active = .view) (hr : m.rng = some r) :
    m.edit f = { m with base := m.base.setSlice r (fun i j => f i j ((m.base.slice r).px i j)) } := by
  unfold Img.edit; rw [h]; simp only [hr]

theorem edit_own (m : Img) (f) (d) (h : m.active = .own d) :
    m.edit f = { m with active := .own ⟨d.nx, d.ny, fun i j => f i j (d.px i j)⟩ } := by
  unfold Img.edit; rw [h]

theorem data_view (m : Img) (h : m.active = .view) : m.data = region m.base m.rng := by
  unfold Img.data region; rw [h]; cases m.rng <;> rfl

theorem data_own (m : Img) (d) (h : m.active = .own d) : m.data = d := by unfold Img.data; rw [h]

/-! ## Reading -/

/-- After `activateRange` the data are the scaled pixels of the range and the stored image is untouched; otherwise it raises. -/
theorem activate_shows (m m' : Img) (a : RangeArg) (hp : m.scaling.Proper) (h : m.activateRange a = .ok m') :
    m'.data.same ((region m.base m'.rng).map m.scaling.tr) ∧ m'.base = m.base ∧ m'.scaling = m.scaling ∧ m.resolve a = .ok m'.rng := by
  unfold Img.activateRange at h
  cases hr : m.resolve a with
  | error e => simp [hr] at h
  | ok r =>
    simp only [hr] at h
    have hex : ∀ im, extract m.kind m.base r = .ok im → im = region m.base r := by
      intro im him
      unfold extract at him
      cases r with
      | none => simpa [region] using him.symm
      | some r =>
        cases hk : m.kind with
        | array => simp only [hk, Except.ok.injEq] at him; exact him.symm
        | fits =>
          simp only [hk] at him
          split at him
          · simp at him
          · simp only [Except.ok.injEq] at him; exact him.symm
    cases him : extract m.kind m.base r with
    | error e => simp [him] at h
    | ok im =>
      simp only [him, Except.ok.injEq] at h
      have e := hex im him
      subst h
      subst e
      refine ⟨?_, rfl, rfl, rfl⟩
      unfold newActive
      by_cases hs : m.scaling.same
      · simp only [hs, if_true]
        have : (({ m with rng := r, active := .view } : Img)).data = region m.base r := data_view _ rfl
        rw [this]
        refine ⟨rfl, rfl, fun i j _ => ?_⟩
        simp only [Arr.map]
        rw [(hp.handed hs).1]
      · simp only [hs]
        exact ⟨rfl, rfl, fun i j _ => rfl⟩

/-- A range given by centre and radius is the square around the centre cut off at the edges of the image; the centre must lie in the image. -/
theorem centre_range (m : Img) (x y rad : ℤ) (hrad : 0 ≤ rad) :
    (m.resolve (.centre x y rad) = .error .index ↔ ¬(0 ≤ x ∧ x < m.base.nx ∧ 0 ≤ y ∧ y < m.base.ny)) ∧
    ∀ r, m.resolve (.centre x y rad) = .ok r → ∀ i j, m.base.has i j →
      (selected m.base r i j = true ↔ (x - rad ≤ i ∧ (i : ℤ) < x + rad) ∧ (y - rad ≤ j ∧ (j : ℤ) < y + rad)) := by
  constructor
  · simp only [Img.resolve]
    split
    · rename_i h; simp only [true_iff]; omega
    · rename_i h; simp only [reduceCtorEq, false_iff, not_not]; omega
  · intro r hr i j hij
    simp only [Img.resolve] at hr
    split at hr
    · simp at hr
    · rename_i h
      simp only [Except.ok.injEq] at hr
      subst hr
      obtain ⟨h1, h2⟩ := hij
      simp only [selected, Rng.inside, Rng.x0, Rng.x1, Rng.y0, Rng.y1, bound, decide_eq_true_eq]
      have b1 : ¬ (if x - rad > 0 then x - rad else 0) < 0 := by split <;> omega
      have b2 : ¬ (if x + rad ≤ (m.base.nx : ℤ) then x + rad else (m.base.nx : ℤ)) < 0 := by split <;> omega
      have b3 : ¬ (if y - rad > 0 then y - rad else 0) < 0 := by split <;> omega
      have b4 : ¬ (if y + rad ≤ (m.base.ny : ℤ) then y + rad else (m.base.ny : ℤ)) < 0 := by split <;> omega
      rw [if_neg b1, if_neg b2, if_neg b3, if_neg b4]
      split_ifs <;> omega

/-! ## Changing pixels -/

/-- Changing pixels changes exactly those pixels of the data, and nothing outside the range in the stored image. -/
theorem edit_spec (m : Img) (f : ℕ → ℕ → ℝ → ℝ) :
    (m.edit f).data.nx = m.data.nx ∧ (m.edit f).data.ny = m.data.ny ∧
    (∀ i j, m.data.has i j → (m.edit f).data.px i j = f i j (m.data.px i j)) ∧
    (∀ i j, selected m.base m.rng i j = false → (m.edit f).base.px i j = m.base.px i j) ∧
    (m.edit f).base.nx = m.base.nx ∧ (m.edit f).base.ny = m.base.ny ∧ (m.edit f).rng = m.rng ∧ (m.edit f).scaling = m.scaling := by
  cases ha : m.active with
  | own d =>
    rw [edit_own m f d ha, data_own m d ha]
    refine ⟨rfl, rfl, fun i j _ => rfl, fun i j _ => rfl, rfl, rfl, rfl, rfl⟩
  | view =>
    cases hr : m.rng with
    | none =>
      rw [edit_view_none m f ha hr, data_view m ha, data_view _ (by exact ha), hr]
      simp only [region, hr]
      refine ⟨by trivial, by trivial, fun i j _ => by trivial, fun i j h => by simp [selected] at h, by trivial, by trivial, by trivial, by trivial⟩
    | some r =>
      rw [edit_view_some m f r ha hr, data_view m ha, data_view _ (by exact ha), hr]
      simp only [region, hr]
      refine ⟨by trivial, by trivial, fun i j h => ?_, fun i j h => ?_, by trivial, by trivial, by trivial, by trivial⟩
      · exact slice_setSlice _ _ _ _ _ h
      · simp only [selected] at h
        simp [Arr.setSlice, h]

/-- With a scaling that hands the array through (linear, power) changes reach the stored image at once; with others they do not until they are
applied. -/
theorem edit_reaches (m : Img) (f : ℕ → ℕ → ℝ → ℝ) :
    (∀ d, m.active = .own d → (m.edit f).base = m.base) ∧
    (m.active = .view → ∀ i j, selected m.base m.rng i j = true →
      (m.edit f).base.px i j = f (place m.base m.rng i j).1 (place m.base m.rng i j).2 (m.base.px i j)) := by
  constructor
  · intro d h; rw [edit_own m f d h]
  · intro h i j hs
    cases hr : m.rng with
    | none => rw [edit_view_none m f h hr]; rfl
    | some r =>
      rw [edit_view_some m f r h hr]
      rw [hr] at hs
      simp only [selected] at hs
      simp only [Arr.setSlice, hs, if_true, Arr.slice, place]
      simp only [Rng.inside, decide_eq_true_eq] at hs
      congr 2 <;> omega

/-! ## Invariants of histories -/

/-- With the linear scaling `data` is a view of the stored image; the data have the shape of the range; the scaling is proper. -/
structure Inv (m : Img) : Prop where
  proper : m.scaling.Proper
  view : m.scaling.same = true ↔ m.active = .view
  shape : m.data.nx = (region m.base m.rng).nx ∧ m.data.ny = (region m.base m.rng).ny
  valid : ∀ e, extract m.kind m.base m.rng ≠ .error e

theorem extract_shape (k : Kind) (b b' : Arr) (r : Option Rng) (hx : b'.nx = b.nx) (hy : b'.ny = b.ny) (e : Err)
    (h : extract k b r ≠ .error e) : extract k b' r ≠ .error e := by
  cases r with
  | none => simp [extract]
  | some r =>
    cases k with
    | array => simp [extract]
    | fits =>
      simp only [extract, hx, hy] at h ⊢
      split
      · rename_i hh; simpa [hh] using h
      · simp

theorem activate_inv (m m' : Img) (a : RangeArg) (hp : m.scaling.Proper) (h : m.activateRange a = .ok m') : Inv m' := by
  have hs := activate_shows m m' a hp h
  obtain ⟨⟨s1, s2, _⟩, s3, s4, s5⟩ := hs
  unfold Img.activateRange at h
  rw [s5] at h
  simp only at h
  cases him : extract m.kind m.base m'.rng with
  | error e => simp [him] at h
  | ok im =>
    simp only [him, Except.ok.injEq] at h
    have hk : m'.kind = m.kind := by rw [← h]
    refine ⟨by rw [s4]; exact hp, ?_, by rw [s3]; exact ⟨s1, s2⟩, by rw [hk, s3, him]; simp⟩
    rw [s4]
    have : m'.active = newActive m.scaling im := by rw [← h]
    rw [this]
    unfold newActive
    by_cases hq : m.scaling.same <;> simp [hq]

theorem edit_inv (m : Img) (f) (hi : Inv m) : Inv (m.edit f) := by
  obtain ⟨e1, e2, _, _, e5, e6, e7, e8⟩ := edit_spec m f
  have hk : (m.edit f).kind = m.kind := by unfold Img.edit; split <;> try split
                                           all_goals rfl
  refine ⟨by rw [e8]; exact hi.proper, ?_, ?_, fun e => by rw [hk, e7]; exact extract_shape _ _ _ _ e5 e6 e (hi.valid e)⟩
  · rw [e8, hi.view]
    cases ha : m.active with
    | own d => rw [edit_own m f d ha]; simp
    | view =>
      cases hr : m.rng with
      | none => rw [edit_view_none m f ha hr]; simp [ha]
      | some r => rw [edit_view_some m f r ha hr]; simp [ha]
  · rw [e1, e2, e7, hi.shape.1, hi.shape.2]
    have : ∀ r : Option Rng, (region m.base r).nx = (region (m.edit f).base r).nx ∧ (region m.base r).ny = (region (m.edit f).base r).ny := by
      intro r
      cases r with
      | none => exact ⟨e5.symm, e6.symm⟩
      | some r => simp only [region, Arr.slice, e5, e6]; exact ⟨by trivial, by trivial⟩
    exact this m.rng

/-- The shape of the stored image is kept by a write-back of data with the shape of the range. -/
theorem applied_shape (m : Img) (b : Arr) (hi : Inv m) (h : m.applied = .ok b) : b.nx = m.base.nx ∧ b.ny = m.base.ny := by
  unfold Img.applied at h
  cases hg : m.scaling.inv with
  | none => simp [hg] at h
  | some g =>
    simp only [hg] at h
    split at h
    · simp only [Except.ok.injEq] at h; rw [← h]; exact ⟨rfl, rfl⟩
    · unfold apply at h
      cases hk : m.kind <;> cases hr : m.rng <;> simp only [hk, hr] at h
      · split at h
        · rename_i hh; simp only [Except.ok.injEq] at h; rw [← h]; exact hh
        · simp at h
      · split at h
        · simp only [Except.ok.injEq] at h; rw [← h]; exact ⟨rfl, rfl⟩
        · simp at h
      · simp only [Except.ok.injEq] at h
        rw [← h]
        have := hi.shape
        rw [hr] at this
        exact this
      · split at h
        · simp at h
        · split at h
          · simp only [Except.ok.injEq] at h; rw [← h]; exact ⟨rfl, rfl⟩
          · simp at h

theorem afterApply_inv (m : Img) (b : Arr) (hi : Inv m) (hb : b.nx = m.base.nx ∧ b.ny = m.base.ny) (c : Cache) :
    Inv { (afterApply m b) with fstat := c } := by
  have hreg : ∀ r : Option Rng, (region b r).nx = (region m.base r).nx ∧ (region b r).ny = (region m.base r).ny := by
    intro r
    cases r with
    | none => exact hb
    | some r => simp only [region, Arr.slice, hb.1, hb.2]; exact ⟨by trivial, by trivial⟩
  unfold afterApply
  split
  · rename_i h
    refine ⟨hi.proper, by simp [h.2.2], ?_, fun e => extract_shape _ _ _ _ hb.1 hb.2 e (hi.valid e)⟩
    exact ⟨by rw [data_view _ rfl], by rw [data_view _ rfl]⟩
  · refine ⟨hi.proper, hi.view, ?_, fun e => extract_shape _ _ _ _ hb.1 hb.2 e (hi.valid e)⟩
    cases ha : m.active with
    | view =>
      have := data_view ({ m with base := b, fstat := c, active := .view } : Img) rfl
      exact ⟨congrArg Arr.nx this, congrArg Arr.ny this⟩
    | own d =>
      have h0 := hi.shape
      rw [data_own m d ha] at h0
      have := data_own ({ m with base := b, fstat := c, active := .own d } : Img) d rfl
      show (Img.data ({ m with base := b, fstat := c, active := .own d } : Img)).nx = _ ∧ (Img.data ({ m with base := b, fstat := c, active := .own d } : Img)).ny = _
      rw [this]
      exact ⟨h0.1.trans (hreg m.rng).1.symm, h0.2.trans (hreg m.rng).2.symm⟩

theorem apply_inv (m : Img) (hi : Inv m) : Inv m.applyChanges.1 := by
  unfold Img.applyChanges
  cases h : m.applied with
  | error e => exact hi
  | ok b =>
    have hb := applied_shape m b hi h
    cases hf : m.fstat with
    | none => simpa [← hf] using afterApply_inv m b hi hb (afterApply m b).fstat
    | empty => exact afterApply_inv m b hi hb .empty
    | full s => exact afterApply_inv m b hi hb .empty

theorem scale_inv (m m' : Img) (sc : Scaling) (hp : sc.Proper) (h : m.setScaling sc = .ok m') : Inv m' :=
  activate_inv _ m' _ hp h

/-- A scaling can be set on every image that has arisen. -/
theorem scale_ok (m : Img) (sc : Scaling) (hi : Inv m) (e : Err) : m.setScaling sc ≠ .error e := by
  unfold Img.setScaling Img.activateRange
  have hr : ∀ m0 : Img, m0.resolve (toArg m.rng) = .ok m.rng := by intro m0; cases m.rng <;> rfl
  rw [hr]
  have := hi.valid
  simp only
  cases hx : extract m.kind m.base m.rng with
  | error e' => exact absurd hx (this e')
  | ok im => simp

theorem reach_inv (m : Img) (h : Reach m) : Inv m := by
  induction h with
  | create k base r sc m hsc h =>
    unfold create at h
    cases sc with
    | none => exact activate_inv _ m _ linear_proper h
    | some s =>
      simp only at h
      split at h
      · simp at h
      · exact scale_inv _ m s (hsc s rfl) h
  | step m op h hop ih =>
    cases op with
    | activate a =>
      cases hh : m.activateRange a with
      | ok m' => simp only [step, hh]; exact activate_inv m m' a ih.proper hh
      | error e => simp only [step, hh]; exact ih
    | scale sc =>
      cases hh : m.setScaling sc with
      | ok m' => simp only [step, hh]; exact scale_inv m m' sc (hop sc rfl) hh
      | error e => exact absurd hh (scale_ok m sc ih e)
    | scaleNone =>
      by_cases hn : m.scaling.name = "linear"
      · simp only [step, Img.setScalingNone, hn, if_true]; exact ih
      · simp only [step, Img.setScalingNone, hn, if_false]
        cases hh : m.setScaling linear with
        | ok m' => exact scale_inv m m' linear linear_proper hh
        | error e => exact absurd hh (scale_ok m linear ih e)
    | edit f => exact edit_inv m f ih
    | stats np =>
      cases hh : m.fullStats np with
      | error e => simp only [step, hh]; exact ih
      | ok p =>
        obtain ⟨s, m'⟩ := p
        simp only [step, hh]
        unfold Img.fullStats at hh
        cases hf : m.fstat with
        | none => simp [hf] at hh
        | full s0 => simp only [hf, Except.ok.injEq, Prod.mk.injEq] at hh; rw [← hh.2]; exact ih
        | empty =>
          simp only [hf, Except.ok.injEq, Prod.mk.injEq] at hh
          rw [← hh.2]
          exact ⟨ih.proper, ih.view, ih.shape, ih.valid⟩
    | applyChanges => exact apply_inv m ih

/-! ## Writing back -/

theorem selected_has (base : Arr) (r : Option Rng) (i j : ℕ) (hb : base.has i j) (h : selected base r i j = true) :
    (region base r).has (place base r i j).1 (place base r i j).2 := by
  cases r with
  | none => exact hb
  | some r =>
    simp only [selected, Rng.inside, decide_eq_true_eq] at h
    simp only [region, Arr.has, Arr.slice, place]
    omega

theorem region_place (base : Arr) (r : Option Rng) (i j : ℕ) (h : selected base r i j = true) :
    (region base r).px (place base r i j).1 (place base r i j).2 = base.px i j := by
  cases r with
  | none => rfl
  | some r =>
    simp only [selected, Rng.inside, decide_eq_true_eq] at h
    simp only [region, Arr.slice, place]
    congr 1 <;> omega

theorem afterApply_base (m : Img) (b : Arr) : (afterApply m b).base = b := by unfold afterApply; split <;> rfl
theorem afterApply_rng (m : Img) (b : Arr) : (afterApply m b).rng = m.rng := by unfold afterApply; split <;> rfl
theorem afterApply_kind (m : Img) (b : Arr) : (afterApply m b).kind = m.kind := by unfold afterApply; split <;> rfl
theorem afterApply_scaling (m : Img) (b : Arr) : (afterApply m b).scaling = m.scaling := by unfold afterApply; split <;> rfl

/-- For images in memory and for FITS images as a whole a write-back succeeds and stores the inversely scaled data. -/
theorem applied_spec (m : Img) (g : ℝ → ℝ) (hi : Inv m) (hg : m.scaling.inv = some g) (hk : m.kind = .array ∨ m.rng = none) :
    ∃ b, m.applied = .ok b ∧ b.nx = m.base.nx ∧ b.ny = m.base.ny ∧
      ∀ i j, m.base.has i j → b.px i j =
        if selected m.base m.rng i j then g (m.data.px (place m.base m.rng i j).1 (place m.base m.rng i j).2) else m.base.px i j := by
  have hsh := hi.shape
  unfold Img.applied
  simp only [hg]
  by_cases hl : m.scaling.name = "linear" ∧ m.kind = .array
  · rw [if_pos hl]
    refine ⟨m.base, rfl, rfl, rfl, fun i j hb => ?_⟩
    have hs := hi.proper.named hl.1
    obtain ⟨_, g', hg', hid⟩ := hi.proper.handed hs
    rw [hg] at hg'
    simp only [Option.some.injEq] at hg'
    subst hg'
    split
    · rename_i h
      rw [hid, data_view m (hi.view.1 hs), region_place _ _ _ _ h]
    · rfl
  · rw [if_neg hl]
    cases hr : m.rng with
    | none =>
      rw [hr] at hsh
      have : apply m.kind m.base none (m.data.map g) = .ok (m.data.map g) := by
        cases hk' : m.kind with
        | array => simp only [apply]; rw [if_pos]; exact hsh
        | fits => rfl
      rw [this]
      refine ⟨_, rfl, hsh.1, hsh.2, fun i j _ => by simp [selected, place, Arr.map]⟩
    | some r =>
      have hka : m.kind = .array := by
        rcases hk with h | h
        · exact h
        · rw [hr] at h; simp at h
      rw [hr] at hsh
      have : apply m.kind m.base (some r) (m.data.map g) = .ok (m.base.setSlice r (m.data.map g).px) := by
        rw [hka]; simp only [apply]; rw [if_pos]; exact hsh
      rw [this]
      refine ⟨_, rfl, rfl, rfl, fun i j _ => ?_⟩
      cases hin : r.inside m.base i j <;> simp [selected, place, Arr.map, Arr.setSlice, hin]

/-- `applyChanges` on any image in memory (or FITS image as a whole) whose scaling has an inverse: the pixels of the range become the inversely
scaled data, all others stay; range and scaling are kept; it reports an error exactly when the statistics were dropped by a change of scaling. -/
theorem apply_writes (m : Img) (g : ℝ → ℝ) (hm : Reach m) (hg : m.scaling.inv = some g) (hk : m.kind = .array ∨ m.rng = none) :
    let m' := m.applyChanges.1
    (m'.base.nx = m.base.nx ∧ m'.base.ny = m.base.ny) ∧
    (∀ i j, m.base.has i j → m'.base.px i j =
      if selected m.base m.rng i j then g (m.data.px (place m.base m.rng i j).1 (place m.base m.rng i j).2) else m.base.px i j) ∧
    m'.rng = m.rng ∧ m'.scaling = m.scaling ∧
    (m.applyChanges.2 = if m.fstat matches .none then some .attribute else none) := by
  obtain ⟨b, hb, h1, h2, h3⟩ := applied_spec m g (reach_inv m hm) hg hk
  unfold Img.applyChanges
  rw [hb]
  cases hf : m.fstat <;>
    simp only [afterApply_base, afterApply_rng, afterApply_scaling] <;> exact ⟨⟨h1, h2⟩, h3, by trivial, by trivial, by trivial⟩

/-- Reading the range again after `applyChanges` gives the data that were applied, provided the scaling undoes its inverse on them. -/
theorem apply_reread (m m' : Img) (g : ℝ → ℝ) (hm : Reach m) (hg : m.scaling.inv = some g) (hk : m.kind = .array ∨ m.rng = none)
    (hinv : ∀ i j, m.data.has i j → m.scaling.tr (g (m.data.px i j)) = m.data.px i j)
    (h : m.applyChanges.1.activateRange (toArg m.rng) = .ok m') : m'.data.same m.data := by
  have hi := reach_inv m hm
  obtain ⟨⟨w1, w2⟩, w3, w4, w5, _⟩ := apply_writes m g hm hg hk
  have hp : m.applyChanges.1.scaling.Proper := by rw [w5]; exact hi.proper
  obtain ⟨⟨s1, s2, s3⟩, s4, s5, s6⟩ := activate_shows _ m' _ hp h
  have hr : m'.rng = m.rng := by
    have : m.applyChanges.1.resolve (toArg m.rng) = .ok m.rng := by cases m.rng <;> rfl
    rw [this] at s6
    exact (Except.ok.inj s6).symm
  rw [hr, w5] at s1 s2 s3
  have hreg : (region m.applyChanges.1.base m.rng).nx = (region m.base m.rng).nx ∧
      (region m.applyChanges.1.base m.rng).ny = (region m.base m.rng).ny := by
    cases m.rng with
    | none => exact ⟨w1, w2⟩
    | some r => simp only [region, Arr.slice, w1, w2]; exact ⟨by trivial, by trivial⟩
  have e1 : m'.data.nx = m.data.nx := by rw [s1, hi.shape.1]; exact hreg.1
  have e2 : m'.data.ny = m.data.ny := by rw [s2, hi.shape.2]; exact hreg.2
  refine ⟨e1, e2, fun i j hij => ?_⟩
  rw [s3 i j hij]
  have hd : m.data.has i j := by unfold Arr.has at hij ⊢; rw [e1, e2] at hij; exact hij
  simp only [Arr.map]
  have key : (region m.applyChanges.1.base m.rng).px i j = g (m.data.px i j) := by
    have hsh := hi.shape
    cases hr' : m.rng with
    | none =>
      rw [hr'] at hsh w3
      have hb : m.base.has i j := by unfold Arr.has at hd ⊢; rw [hsh.1, hsh.2] at hd; exact hd
      have := w3 i j hb
      simp only [selected, if_true, place] at this
      exact this
    | some r =>
      rw [hr'] at hsh w3
      simp only [region, Arr.slice] at hsh
      obtain ⟨d1, d2⟩ := hd
      have q1 : r.x1 m.base.nx ≤ m.base.nx := bound_le _ _
      have q2 : r.y1 m.base.ny ≤ m.base.ny := bound_le _ _
      have hb : m.base.has (r.x0 m.base.nx + i) (r.y0 m.base.ny + j) := by constructor <;> omega
      have := w3 _ _ hb
      have hin : r.inside m.base (r.x0 m.base.nx + i) (r.y0 m.base.ny + j) = true := by
        simp only [Rng.inside, decide_eq_true_eq]; omega
      simp only [selected, hin, if_true, place, Nat.add_sub_cancel_left] at this
      simp only [region, Arr.slice, w1, w2]
      exact this
  rw [key, hinv i j hd]

/-- Example: a user changes two pixels of a range of a 3x3 image with a scaling that subtracts 1 and applies the change. -/
noncomputable def shiftScaling : Scaling := ⟨"shift", fun x => x - 1, some fun x => x + 1, false⟩
theorem shiftScaling_proper : shiftScaling.Proper := ⟨fun h => by simp [shiftScaling] at h, fun h => by simp [shiftScaling] at h⟩
noncomputable def ex1 : Img := step (step ⟨.array, ⟨3, 3, fun i j => i + 10 * j⟩, none, linear, .view, .empty⟩ (.activate (.box ⟨1, 3, 0, 2⟩))) (.scale shiftScaling)
noncomputable def ex2 : Img := step ex1 (.edit fun i j x => if i = 0 then 7 else x)

example : Reach ex2 := by
  refine .step _ _ (.step _ _ (.step _ _ (.create .array ⟨3, 3, fun i j => i + 10 * j⟩ none none _ (by simp) rfl) (by simp)) ?_) (by simp)
  intro sc h
  simp only [Op.scale.injEq] at h
  subst h
  exact shiftScaling_proper
example : ex2.applyChanges.1.base.px 1 1 = 8 ∧ ex2.applyChanges.1.base.px 2 1 = 12 ∧ ex2.applyChanges.1.base.px 0 1 = 10 := by
  refine ⟨?_, ?_, ?_⟩ <;> simp [ex2, ex1, step, Img.activateRange, Img.resolve, extract, newActive, linear, Img.setScaling, toArg, shiftScaling, Img.edit,
    Img.applyChanges, Img.applied, apply, Img.data, Arr.slice, Arr.map, Arr.setSlice, Rng.inside, Rng.x0, Rng.x1, Rng.y0, Rng.y1, bound, afterApply] <;>
    norm_num

end Verif.Ccd
