import Verif.CcdImageProps

/-!
# CCD images: FITS ranges, statistics, clipping, defects (C104)
-/

namespace Verif.Ccd

/-! ## Ranges of FITS images -/

/-- `applyChanges` on a range of a FITS image: a range that is not square raises ValueError and leaves the image as it is. -/
theorem fits_range_not_square (m : Img) (r : Rng) (g : ℝ → ℝ) (hm : Reach m) (hk : m.kind = .fits) (hr : m.rng = some r) (hg : m.scaling.inv = some g)
    (hne : (m.base.slice r).nx ≠ (m.base.slice r).ny) : m.applyChanges = (m, some .value) := by
  have hi := reach_inv m hm
  have hsh := hi.shape
  have hv := hi.valid .index
  rw [hr] at hsh
  have h : m.applied = .error .value := by
    unfold Img.applied
    simp only [hg]
    rw [if_neg (by simp [hk])]
    simp only [apply, hk, hr]
    rw [hk, hr] at hv
    simp only [extract] at hv
    split
    · rename_i hh; simp [hh] at hv
    · rw [if_neg]
      intro hc
      have h1 : m.data.nx = (m.base.slice r).nx := hsh.1
      have h2 : (m.data.map g).nx = m.data.nx := rfl
      exact hne (h1 ▸ h2 ▸ hc.1)
  unfold Img.applyChanges
  rw [h]

/-- ... and the pixels of a square range are stored transposed. -/
theorem fits_range_transposed (m : Img) (r : Rng) (g : ℝ → ℝ) (hm : Reach m) (hk : m.kind = .fits) (hr : m.rng = some r) (hg : m.scaling.inv = some g)
    (hsq : (m.base.slice r).nx = (m.base.slice r).ny) (i j : ℕ) (hs : selected m.base (some r) i j = true) :
    m.applyChanges.1.base.px i j = g (m.data.px (place m.base (some r) i j).2 (place m.base (some r) i j).1) := by
  have hi := reach_inv m hm
  have hsh := hi.shape
  have hv := hi.valid .index
  rw [hr] at hsh
  have h : m.applied = .ok (m.base.setSlice r (fun i j => (m.data.map g).px j i)) := by
    unfold Img.applied
    simp only [hg]
    rw [if_neg (by simp [hk])]
    simp only [apply, hk, hr]
    rw [hk, hr] at hv
    simp only [extract] at hv
    split
    · rename_i hh; simp [hh] at hv
    · rw [if_pos]
      have h1 : m.data.nx = (m.base.slice r).nx := hsh.1
      have h2 : m.data.ny = (m.base.slice r).ny := hsh.2
      exact ⟨h1.trans hsq, h2.trans hsq.symm⟩
  have hb : m.applyChanges.1.base = m.base.setSlice r (fun i j => (m.data.map g).px j i) := by
    unfold Img.applyChanges
    rw [h]
    cases m.fstat <;> simp [afterApply_base]
  rw [hb]
  simp only [selected] at hs
  simp [Arr.setSlice, hs, Arr.map, place]

/-! ## Statistics -/

/-- Once a scaling has been set, statistics of the whole image are never available again, whatever is done with the image ... -/
theorem stats_lost (m m' : Img) (sc : Scaling) (h : m.setScaling sc = .ok m') (ops : List Op) : (ops.foldl step m').fstat = .none := by
  have h0 : m'.fstat = .none := by
    unfold Img.setScaling Img.activateRange at h
    split at h
    · simp at h
    · split at h
      · simp at h
      · simp only [Except.ok.injEq] at h; rw [← h]
  have act : ∀ (m1 m2 : Img) a, m1.activateRange a = .ok m2 → m2.fstat = m1.fstat := by
    intro m1 m2 a h
    unfold Img.activateRange at h
    split at h
    · simp at h
    · split at h
      · simp at h
      · simp only [Except.ok.injEq] at h; rw [← h]
  have hstep : ∀ m op, m.fstat = .none → (step m op).fstat = .none := by
    intro m op hm
    cases op with
    | activate a =>
      cases hh : m.activateRange a with
      | ok m2 => simp only [step, hh]; rw [act _ _ _ hh, hm]
      | error e => simp only [step, hh]; exact hm
    | scale sc =>
      cases hh : m.setScaling sc with
      | ok m2 => simp only [step, hh]; exact act _ _ _ hh
      | error e => simp only [step, hh]
    | scaleNone =>
      by_cases hn : m.scaling.name = "linear"
      · simp only [step, Img.setScalingNone, hn, if_true]; exact hm
      · simp only [step, Img.setScalingNone, hn, if_false]
        cases hh : m.setScaling linear with
        | ok m2 => exact act _ _ _ hh
        | error e => rfl
    | edit f =>
      simp only [step]
      unfold Img.edit
      split
      · exact hm
      · split <;> exact hm
    | stats np => simp only [step, Img.fullStats, hm]
    | applyChanges =>
      simp only [step, Img.applyChanges]
      split
      · exact hm
      · simp only [hm]
        unfold afterApply
        split <;> exact hm
  induction ops generalizing m' with
  | nil => exact h0
  | cons op ops ih =>
    simp only [List.foldl_cons]
    clear h
    have : ∀ (ops : List Op) (m : Img), m.fstat = .none → (ops.foldl step m).fstat = .none := by
      intro ops
      induction ops with
      | nil => intro m h; exact h
      | cons op ops ih => intro m h; exact ih _ (hstep m op h)
    exact this ops _ (hstep m' op h0)

/-- ... so that `clipSigma`, the actions 'fullmean' and 'fullmedian' and the offsets 'gmin' and 'gminp1' raise TypeError, and `applyChanges` always
reports an error (after storing the changes). -/
theorem without_stats (np : Np) (m : Img) (h : m.fstat = .none) :
    (∀ s f a, m.clipSigma np s f a = .error .type) ∧ (∀ c, m.replace np .fullmean c = .error .type) ∧
    (∀ c, m.replace np .fullmedian c = .error .type) ∧ m.offsetData np .gmin = .error .type ∧ m.offsetData np .gminp1 = .error .type ∧
    m.applyChanges.2 ≠ none := by
  have hs : m.fullStats np = .error .type := by unfold Img.fullStats; rw [h]
  refine ⟨fun s f a => ?_, fun c => ?_, fun c => ?_, ?_, ?_, ?_⟩
  · unfold Img.clipSigma; rw [hs]
  · unfold Img.replace; simp only [hs]
  · unfold Img.replace; simp only [hs]
  · unfold Img.offsetData; simp only [hs]
  · unfold Img.offsetData; simp only [hs]
  · unfold Img.applyChanges
    cases m.applied with
    | error e => simp
    | ok b => simp [h]

/-- After an `applyChanges` without error the statistics are those of the stored image. -/
theorem stats_fresh (np : Np) (m : Img) (h : m.applyChanges.2 = none) :
    ∃ s m', m.applyChanges.1.fullStats np = .ok (s, m') ∧
      s.mean = np.mean (m.applyChanges.1.base.map m.applyChanges.1.scaling.tr).pixels ∧
      s.median = np.median (m.applyChanges.1.base.map m.applyChanges.1.scaling.tr).pixels ∧
      s.std = np.std (m.applyChanges.1.base.map m.applyChanges.1.scaling.tr).pixels ∧
      s.min = np.min (m.applyChanges.1.base.map m.applyChanges.1.scaling.tr).pixels ∧
      s.max = np.max (m.applyChanges.1.base.map m.applyChanges.1.scaling.tr).pixels := by
  have hf : m.applyChanges.1.fstat = .empty := by
    unfold Img.applyChanges at h ⊢
    cases hh : m.applied with
    | error e => simp [hh] at h
    | ok b =>
      simp only [hh] at h ⊢
      cases hc : m.fstat with
      | none => simp [hc] at h
      | empty => rfl
      | full s => rfl
  unfold Img.fullStats
  rw [hf]
  exact ⟨_, _, rfl, rfl, rfl, rfl, rfl, rfl⟩

/-- Statistics once computed are not renewed when pixels change: the next clipping or offset uses the old values. -/
theorem stats_stale (np : Np) (m m' : Img) (s : Stats) (h : m.fullStats np = .ok (s, m')) (f : ℕ → ℕ → ℝ → ℝ) :
    ∃ m'', (m'.edit f).fullStats np = .ok (s, m'') := by
  have hf : m'.fstat = .full s := by
    unfold Img.fullStats at h
    split at h
    · rename_i s0 hs0
      simp only [Except.ok.injEq, Prod.mk.injEq] at h
      rw [← h.2, hs0, h.1]
    · simp at h
    · simp only [Except.ok.injEq, Prod.mk.injEq] at h
      rw [← h.2, ← h.1]
  have : (m'.edit f).fstat = .full s := by
    unfold Img.edit
    split
    · exact hf
    · split <;> exact hf
  unfold Img.fullStats
  rw [this]
  exact ⟨_, rfl⟩

/-! ## Clipping -/

/-- The value an action puts in place of clipped pixels, as documented. -/
inductive Puts (np : Np) (m : Img) (c : ℕ → ℕ → Bool) : Action → ℝ → Prop where
  | number (v) : Puts np m c (.number v) v
  | mean : Puts np m c .mean (np.mean m.data.pixels)
  | median : Puts np m c .median (np.median m.data.pixels)
  | noclipmean : Puts np m c .noclipmean (np.mean (unclipped m.data c))
  | noclipmedian : Puts np m c .noclipmedian (np.median (unclipped m.data c))
  | fullmean (s m') (h : m.fullStats np = .ok (s, m')) : Puts np m c .fullmean s.mean
  | fullmedian (s m') (h : m.fullStats np = .ok (s, m')) : Puts np m c .fullmedian s.median

theorem fullStats_keeps (np : Np) (m m' : Img) (s : Stats) (h : m.fullStats np = .ok (s, m')) :
    m'.data = m.data ∧ m'.base = m.base ∧ m'.rng = m.rng ∧ m'.active = m.active := by
  unfold Img.fullStats at h
  split at h
  · simp only [Except.ok.injEq, Prod.mk.injEq] at h; rw [← h.2]; exact ⟨rfl, rfl, rfl, rfl⟩
  · simp at h
  · simp only [Except.ok.injEq, Prod.mk.injEq] at h; rw [← h.2]; exact ⟨rfl, rfl, rfl, rfl⟩

/-- Replacing clipped pixels: exactly the clipped pixels get the documented value, all others stay, nothing outside the range changes; the
returned counts, one per column, add up to the number of clipped pixels. -/
theorem replace_spec (np : Np) (m m' : Img) (a : Action) (c : ℕ → ℕ → Bool) (n : List ℕ) (h : m.replace np a c = .ok (m', n)) :
    ∃ v, Puts np m c a v ∧ m'.data.nx = m.data.nx ∧ m'.data.ny = m.data.ny ∧
      (∀ i j, m.data.has i j → m'.data.px i j = if c i j then v else m.data.px i j) ∧
      (∀ i j, selected m.base m.rng i j = false → m'.base.px i j = m.base.px i j) ∧
      n = (List.range m.data.ny).map (fun j => (List.range m.data.nx).countP fun i => c i j) := by
  have key : ∀ (m0 : Img) (v : ℝ), m0.data = m.data ∧ m0.base = m.base ∧ m0.rng = m.rng →
      m' = (m0.edit fun i j x => if c i j then v else x) → n = ((List.range m0.data.ny).map fun j => ((List.range m0.data.nx).filter fun i => c i j).length) →
      m'.data.nx = m.data.nx ∧ m'.data.ny = m.data.ny ∧
      (∀ i j, m.data.has i j → m'.data.px i j = if c i j then v else m.data.px i j) ∧
      (∀ i j, selected m.base m.rng i j = false → m'.base.px i j = m.base.px i j) ∧
      n = (List.range m.data.ny).map (fun j => (List.range m.data.nx).countP fun i => c i j) := by
    intro m0 v hd hm' hn
    obtain ⟨e1, e2, e3, e4, _⟩ := edit_spec m0 (fun i j x => if c i j then v else x)
    rw [← hm'] at e1 e2 e3 e4
    rw [hd.1] at e1 e2 e3 hn
    rw [hd.2.1, hd.2.2] at e4
    refine ⟨e1, e2, e3, e4, ?_⟩
    rw [hn]
    simp only [List.countP_eq_length_filter]
  unfold Img.replace at h
  cases a with
  | number v => simp only [Except.ok.injEq, Prod.mk.injEq] at h; exact ⟨_, .number v, key m _ ⟨rfl, rfl, rfl⟩ h.1.symm h.2.symm⟩
  | mean => simp only [Except.ok.injEq, Prod.mk.injEq] at h; exact ⟨_, .mean, key m _ ⟨rfl, rfl, rfl⟩ h.1.symm h.2.symm⟩
  | median => simp only [Except.ok.injEq, Prod.mk.injEq] at h; exact ⟨_, .median, key m _ ⟨rfl, rfl, rfl⟩ h.1.symm h.2.symm⟩
  | noclipmean => simp only [Except.ok.injEq, Prod.mk.injEq] at h; exact ⟨_, .noclipmean, key m _ ⟨rfl, rfl, rfl⟩ h.1.symm h.2.symm⟩
  | noclipmedian => simp only [Except.ok.injEq, Prod.mk.injEq] at h; exact ⟨_, .noclipmedian, key m _ ⟨rfl, rfl, rfl⟩ h.1.symm h.2.symm⟩
  | fullmean =>
    simp only at h
    cases hs : m.fullStats np with
    | error e => simp [hs] at h
    | ok p =>
      obtain ⟨s, m1⟩ := p
      obtain ⟨k1, k2, k3, _⟩ := fullStats_keeps np m m1 s hs
      simp only [hs, Except.ok.injEq, Prod.mk.injEq] at h
      exact ⟨_, .fullmean s m1 hs, key m1 _ ⟨k1, k2, k3⟩ h.1.symm h.2.symm⟩
  | fullmedian =>
    simp only at h
    cases hs : m.fullStats np with
    | error e => simp [hs] at h
    | ok p =>
      obtain ⟨s, m1⟩ := p
      obtain ⟨k1, k2, k3, _⟩ := fullStats_keeps np m m1 s hs
      simp only [hs, Except.ok.injEq, Prod.mk.injEq] at h
      exact ⟨_, .fullmedian s m1 hs, key m1 _ ⟨k1, k2, k3⟩ h.1.symm h.2.symm⟩
  | other => simp at h

/-- `clipThreshold`: exactly the pixels that satisfy the comparison are replaced. -/
def satisfies : Comp → ℝ → ℝ → Prop
  | .lt, x, t => x < t
  | .gt, x, t => t < x
  | .ge, x, t => t ≤ x
  | .le, x, t => x ≤ t
  | .other, _, _ => False

theorem clipThreshold_spec (np : Np) (m m' : Img) (t v : ℝ) (comp : Comp) (n : List ℕ) (h : m.clipThreshold np t (.number v) comp = .ok (m', n)) :
    ∀ i j, m.data.has i j →
      (satisfies comp (m.data.px i j) t → m'.data.px i j = v) ∧ (¬ satisfies comp (m.data.px i j) t → m'.data.px i j = m.data.px i j) := by
  intro i j hij
  cases comp with
  | other => simp [Img.clipThreshold] at h
  | lt | gt | ge | le =>
    simp only [Img.clipThreshold] at h
    obtain ⟨w, hw, _, _, h3, _⟩ := replace_spec np m m' _ _ n h
    cases hw
    rw [h3 i j hij]
    simp only [satisfies]
    constructor <;> intro hs
    · rw [if_pos]; simpa using hs
    · rw [if_neg]; simpa using hs

/-- An unknown comparison is rejected; the default threshold action replaces negative pixels. -/
theorem clipThreshold_rejects (np : Np) (m : Img) (t : ℝ) (a : Action) : m.clipThreshold np t a .other = .error .value := rfl

theorem mem_unclipped (a : Arr) (c : ℕ → ℕ → Bool) (x : ℝ) : x ∈ unclipped a c ↔ ∃ i j, a.has i j ∧ c i j = false ∧ a.px i j = x := by
  simp only [unclipped, List.mem_flatMap, List.mem_range, List.mem_map, List.mem_filter, Arr.has]
  constructor
  · rintro ⟨i, hi, j, ⟨hj, hc⟩, hx⟩; exact ⟨i, j, ⟨hi, hj⟩, by simpa using hc, hx⟩
  · rintro ⟨i, j, ⟨hi, hj⟩, hc, hx⟩; exact ⟨i, hi, j, ⟨hj, by simpa using hc⟩, hx⟩

theorem mem_pixels (a : Arr) (x : ℝ) : x ∈ a.pixels ↔ ∃ i j, a.has i j ∧ a.px i j = x := by
  simp only [Arr.pixels, List.mem_flatMap, List.mem_range, List.mem_map, Arr.has]
  constructor
  · rintro ⟨i, hi, j, hj, hx⟩; exact ⟨i, j, ⟨hi, hj⟩, hx⟩
  · rintro ⟨i, j, ⟨hi, hj⟩, hx⟩; exact ⟨i, hi, j, hj, hx⟩

/-- `clipOutliers` with the median of the unclipped pixels: afterwards every pixel is within the limits, provided one pixel was (a median lies
between bounds of its sample).  The limits in percent run from the minimum (0) to the maximum (100) of the data. -/
theorem clipOutliers_within (np : Np) (m m' : Img) (lo hi : ℝ) (pc : Bool) (n : List ℕ)
    (hmed : ∀ (l : List ℝ) (a b : ℝ), l ≠ [] → (∀ x ∈ l, a ≤ x ∧ x ≤ b) → a ≤ np.median l ∧ np.median l ≤ b)
    (h : m.clipOutliers np lo hi pc .noclipmedian = .ok (m', n)) (L U : ℝ)
    (hL : L = if pc then np.min m.data.pixels + lo / 100 * (np.max m.data.pixels - np.min m.data.pixels) else lo)
    (hU : U = if pc then np.min m.data.pixels + hi / 100 * (np.max m.data.pixels - np.min m.data.pixels) else hi)
    (hone : ∃ i j, m.data.has i j ∧ L ≤ m.data.px i j ∧ m.data.px i j ≤ U) :
    ∀ i j, m.data.has i j → (L ≤ m'.data.px i j ∧ m'.data.px i j ≤ U) ∧
      (L ≤ m.data.px i j ∧ m.data.px i j ≤ U → m'.data.px i j = m.data.px i j) := by
  have eL : (if pc = true then np.min m.data.pixels + lo * (np.max m.data.pixels - np.min m.data.pixels) / 100 else lo) = L := by
    rw [hL]; split
    · ring
    · rfl
  have eU : (if pc = true then np.min m.data.pixels + hi * (np.max m.data.pixels - np.min m.data.pixels) / 100 else hi) = U := by
    rw [hU]; split
    · ring
    · rfl
  unfold Img.clipOutliers at h
  simp only [eL, eU] at h
  obtain ⟨w, hw, _, _, h3, _⟩ := replace_spec np m m' _ _ n h
  cases hw
  have hbd : ∀ x ∈ unclipped m.data (fun i j => decide (m.data.px i j > U) || decide (m.data.px i j < L)), L ≤ x ∧ x ≤ U := by
    intro x hx
    obtain ⟨i, j, _, hc, hxx⟩ := (mem_unclipped _ _ _).1 hx
    simp only [Bool.or_eq_false_iff, decide_eq_false_iff_not, not_lt, gt_iff_lt] at hc
    rw [← hxx]; exact ⟨hc.2, hc.1⟩
  have hne : unclipped m.data (fun i j => decide (m.data.px i j > U) || decide (m.data.px i j < L)) ≠ [] := by
    obtain ⟨i, j, hij, h1, h2⟩ := hone
    have : m.data.px i j ∈ unclipped m.data (fun i j => decide (m.data.px i j > U) || decide (m.data.px i j < L)) :=
      (mem_unclipped _ _ _).2 ⟨i, j, hij, by simp [not_lt.2 h1, not_lt.2 h2], rfl⟩
    intro hn
    rw [hn] at this
    simp at this
  have hm := hmed _ L U hne hbd
  intro i j hij
  rw [h3 i j hij]
  constructor
  · split
    · exact hm
    · rename_i hc
      simp only [Bool.or_eq_true, decide_eq_true_eq, not_or, not_lt, gt_iff_lt] at hc
      exact ⟨hc.2, hc.1⟩
  · intro hin
    rw [if_neg]
    simp only [Bool.or_eq_true, decide_eq_true_eq, not_or, not_lt, gt_iff_lt]
    exact ⟨hin.2, hin.1⟩

/-- `clipSigma`: with statistics (mean, std) of the whole image, exactly the pixels more than sigma standard deviations off are replaced ... -/
theorem clipSigma_spec (np : Np) (m m' m1 : Img) (s : Stats) (sigma v : ℝ) (fs : Bool) (n : List ℕ) (hs : m.fullStats np = .ok (s, m1))
    (h : m.clipSigma np sigma fs (.number v) = .ok (m', n)) (i j : ℕ) (hij : m.data.has i j) :
    (sigma * s.std < |m.data.px i j - s.mean| → m'.data.px i j = v) ∧ (|m.data.px i j - s.mean| ≤ sigma * s.std → m'.data.px i j = m.data.px i j) := by
  unfold Img.clipSigma at h
  rw [hs] at h
  simp only at h
  obtain ⟨k1, k2, k3, _⟩ := fullStats_keeps np m m1 s hs
  obtain ⟨w, hw, _, _, h3, _⟩ := replace_spec np m1 m' _ _ n h
  cases hw
  rw [k1] at h3
  rw [h3 i j hij]
  constructor
  · intro ho
    rw [if_pos]
    rcases lt_abs.1 ho with h1 | h1
    · simp only [Bool.or_eq_true, decide_eq_true_eq, gt_iff_lt]; left; linarith
    · simp only [Bool.or_eq_true, decide_eq_true_eq, gt_iff_lt]; right; linarith
  · intro ho
    obtain ⟨h1, h2⟩ := abs_le.1 ho
    rw [if_neg]
    simp only [Bool.or_eq_true, decide_eq_true_eq, not_or, not_lt, gt_iff_lt]
    constructor <;> linarith

/-- ... also when the statistics of the active region alone are asked for: `fullsig` makes no difference. -/
theorem clipSigma_ignores_fullsig (np : Np) (m : Img) (sigma : ℝ) (a : Action) : m.clipSigma np sigma false a = m.clipSigma np sigma true a := rfl

/-- `offsetData('min')`: the smallest pixel becomes 0; `offsetData('minp1')` makes it -1, not 1 as documented. -/
theorem offset_min (np : Np) (m m' : Img) (p1 : Bool) (h : m.offsetData np (if p1 then .minp1 else .min) = .ok m')
    (hmin : np.min m.data.pixels ∈ m.data.pixels ∧ ∀ x ∈ m.data.pixels, np.min m.data.pixels ≤ x) :
    (∀ i j, m.data.has i j → (if p1 then -1 else 0) ≤ m'.data.px i j) ∧ (∃ i j, m.data.has i j ∧ m'.data.px i j = if p1 then -1 else 0) := by
  have e : ∀ i j, m.data.has i j → m'.data.px i j = m.data.px i j - np.min m.data.pixels + if p1 then -1 else 0 := by
    intro i j hij
    cases p1 with
    | false =>
      simp only [Bool.false_eq_true, if_false, Img.offsetData, Except.ok.injEq] at h
      rw [← h, (edit_spec m _).2.2.1 i j hij]; simp
    | true =>
      simp only [if_true, Img.offsetData, Except.ok.injEq] at h
      rw [← h, (edit_spec m _).2.2.1 i j hij]; simp; ring
  constructor
  · intro i j hij
    rw [e i j hij]
    have := hmin.2 _ ((mem_pixels _ _).2 ⟨i, j, hij, rfl⟩)
    linarith
  · obtain ⟨i, j, hij, hx⟩ := (mem_pixels _ _).1 hmin.1
    exact ⟨i, j, hij, by rw [e i j hij, hx]; ring⟩

/-- `offsetData('gmin')` subtracts the minimum of the whole stored image (in the display scale, as of the last time the statistics were taken:
here fresh), `offsetData('gminp1')` one more, and `offsetData(v)` the number v, from every pixel. -/
theorem offset_global (np : Np) (m : Img) (hf : m.fstat = .empty) (v : ℝ) :
    (∃ m', m.offsetData np .gmin = .ok m' ∧ ∀ i j, m.data.has i j → m'.data.px i j = m.data.px i j - np.min (m.base.map m.scaling.tr).pixels) ∧
    (∃ m', m.offsetData np .gminp1 = .ok m' ∧ ∀ i j, m.data.has i j → m'.data.px i j = m.data.px i j - np.min (m.base.map m.scaling.tr).pixels - 1) ∧
    (∃ m', m.offsetData np (.value v) = .ok m' ∧ ∀ i j, m.data.has i j → m'.data.px i j = m.data.px i j - v) := by
  obtain ⟨s, m1, hs, hmin⟩ : ∃ s m1, m.fullStats np = .ok (s, m1) ∧ s.min = np.min (m.base.map m.scaling.tr).pixels := by
    unfold Img.fullStats; rw [hf]; exact ⟨_, _, rfl, rfl⟩
  have hd : m1.data = m.data := (fullStats_keeps np m m1 s hs).1
  refine ⟨⟨m1.edit fun _ _ x => x - s.min, ?_, fun i j hij => ?_⟩, ⟨m1.edit fun _ _ x => x - (s.min + 1), ?_, fun i j hij => ?_⟩,
    ⟨m.edit fun _ _ x => x - v, rfl, fun i j hij => ?_⟩⟩
  · simp only [Img.offsetData, hs]
  · rw [(edit_spec m1 _).2.2.1 i j (by rw [hd]; exact hij), hd, hmin]
  · simp only [Img.offsetData, hs]
  · rw [(edit_spec m1 _).2.2.1 i j (by rw [hd]; exact hij), hd, hmin]; ring
  · rw [(edit_spec m _).2.2.1 i j hij]

/-- Example of the clipping theorems: a 2x2 image with one outlier. -/
noncomputable def clipEx : Img := ⟨.array, ⟨2, 2, fun i j => if i = 1 ∧ j = 1 then 1000 else i + 2 * j⟩, none, linear, .view, .empty⟩

example (np : Np) : ∃ m' n, clipEx.clipThreshold np 100 (.number 7) .gt = .ok (m', n) ∧ m'.base.px 1 1 = 7 ∧ m'.base.px 0 1 = 2 ∧ n = [0, 1] := by
  refine ⟨_, _, rfl, ?_, ?_, ?_⟩
  · simp [clipEx, Img.edit, Img.data]; norm_num
  · simp [clipEx, Img.edit, Img.data]; norm_num
  · simp [clipEx, Img.data, List.range_succ]; norm_num

/-! ## Defects -/

/-- The constructor ignores `range` unless a scaling is given (the whole image becomes active). -/
theorem create_ignores_range (k : Kind) (base : Arr) (r : Option Rng) : ∃ m, create k base r none = .ok m ∧ m.rng = none ∧ m.data = base :=
  ⟨_, rfl, rfl, rfl⟩

/-- A FITS image cannot be opened with a scaling: AttributeError. -/
theorem create_fits_scaling (base : Arr) (r : Option Rng) (sc : Scaling) : create .fits base r (some sc) = .error .attribute := rfl

/-- With a scaling, an image in memory shows the scaled range. -/
theorem create_scaled (base : Arr) (r : Option Rng) (sc : Scaling) (hp : sc.Proper) :
    ∃ m, create .array base r (some sc) = .ok m ∧ m.rng = r ∧ m.data.same ((region base r).map sc.tr) := by
  have hc : create .array base r (some sc) = ({ kind := .array, base := base, rng := r, scaling := sc, active := .view, fstat := .none } : Img).activateRange (toArg r) := rfl
  have hr : ∀ m0 : Img, m0.resolve (toArg r) = .ok r := by intro m0; cases r <;> rfl
  have hx : extract .array base r = .ok (region base r) := by cases r <;> rfl
  have : ({ kind := .array, base := base, rng := r, scaling := sc, active := .view, fstat := .none } : Img).activateRange (toArg r)
      = .ok { kind := .array, base := base, rng := r, scaling := sc, active := newActive sc (region base r), fstat := .none } := by
    unfold Img.activateRange; rw [hr]; simp only [hx]
  obtain ⟨h1, h2, h3, h4⟩ := activate_shows _ _ _ hp this
  exact ⟨_, hc.trans this, rfl, h1⟩

/-- An image loaded from a file no longer shares `data` with the stored array: with the linear scaling, changes made after loading are never
stored by `applyChanges`, whatever they are (before saving they would be). -/
theorem load_loses_edits (m : Img) (hl : m.scaling.name = "linear") (hk : m.kind = .array) (g : ℝ → ℝ) (hg : m.scaling.inv = some g) (f : ℕ → ℕ → ℝ → ℝ) :
    (m.saveLoad.edit f).applyChanges.1.base = m.base := by
  have he : m.saveLoad.edit f = { m with active := .own ⟨m.data.nx, m.data.ny, fun i j => f i j (m.data.px i j)⟩ } := edit_own _ f m.data rfl
  rw [he]
  unfold Img.applyChanges Img.applied
  simp only [hg, hl, hk, and_self, if_true]
  cases hf : m.fstat <;> simp [afterApply_base]

theorem load_loses_edits_counterexample :
    ∃ (m : Img) (f : ℕ → ℕ → ℝ → ℝ), Reach m ∧ m.scaling = linear ∧ (m.edit f).applyChanges.1.base.px 0 0 ≠ m.base.px 0 0 ∧
      (m.saveLoad.edit f).applyChanges.1.base.px 0 0 = m.base.px 0 0 := by
  refine ⟨⟨.array, ⟨1, 1, fun _ _ => 0⟩, none, linear, .view, .empty⟩, fun _ _ _ => 5, .create .array ⟨1, 1, fun _ _ => 0⟩ none none _ (by simp) rfl, rfl, ?_, ?_⟩
  · simp [Img.edit, Img.applyChanges, Img.applied, linear, afterApply]
  · rw [load_loses_edits _ rfl rfl _ rfl]

/-- The result of bias subtraction or flattening (an image of the same shape put in place of the data) reaches the stored image for a FITS image
opened as a whole, but never for an image in memory with the linear scaling. -/
theorem replaceData_fits (m : Img) (d : Arr) (g : ℝ → ℝ) (hk : m.kind = .fits) (hr : m.rng = none) (hg : m.scaling.inv = some g) :
    (m.replaceData d).1.base = d.map g := by
  unfold Img.replaceData Img.applyChanges Img.applied
  simp only [hg, hk, hr]
  rw [if_neg (by simp)]
  simp only [apply, Img.data]
  cases hf : m.fstat <;> simp [afterApply_base]

theorem replaceData_lost (m : Img) (d : Arr) (hl : m.scaling.name = "linear") (hk : m.kind = .array) : (m.replaceData d).1.base = m.base := by
  unfold Img.replaceData Img.applyChanges Img.applied
  cases hg : m.scaling.inv with
  | none => simp [hg]
  | some g =>
    simp only [hg, hl, hk, and_self, if_true]
    cases hf : m.fstat <;> simp [afterApply_base]

end Verif.Ccd
