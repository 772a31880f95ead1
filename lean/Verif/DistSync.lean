import Mathlib.Analysis.SpecialFunctions.Log.Base

/-!
# The distance, the modulus and the priority band of the target window (astropysics/gui/spectarget.py 295-334, 353-357) (C240, C241)

The window shows a distance and a distance modulus, and the analyzer it drives (phot.py 1604-1654) has a modulus.  Traits calls a handler at once, when an
assignment changes a value, and not when it does not.  An exception in a handler is reported and swallowed.
-/

namespace Verif.DistSync

/-- The fields of the window, and the modulus of its analyzer (`cmda._dmod`); `inner` is `_distinner`; `redraws` counts `updatedata`. -/
structure St where
  dist : ℝ
  dm : ℝ
  inner : Bool
  cdm : ℝ
  redraws : ℕ

/-- The two fields. -/
inductive Which
  | dist | dm

/-- `_distance_changed` and `_distmod_changed`, spectarget.py 295-312, after the field has its new value.  `f` is `distance_modulus` (`none`: it raises),
`g` is `distance_from_modulus`; the analyzer's `distance` sets the modulus with `f` and reads it with `g` (phot.py 1622-1625).  The first argument
bounds the nesting of the handlers (`depth`: two are enough). -/
noncomputable def fire (f : ℝ → Option ℝ) (g : ℝ → ℝ) : ℕ → Which → St → St
  | 0, _, s => s
  | n + 1, w, s =>
    if s.inner = true then { s with inner := false }
    else match w with
      | .dist => match f s.dist with
        | none => s
        | some v =>
          let s := { s with cdm := v, inner := true }
          let s := haveI := Classical.dec (v = s.dm); if v = s.dm then s else fire f g n .dm { s with dm := v }
          { s with redraws := s.redraws + 1 }
      | .dm =>
        let s := { s with cdm := s.dm, inner := true }
        let v := g s.cdm
        let s := haveI := Classical.dec (v = s.dist); if v = s.dist then s else fire f g n .dist { s with dist := v }
        { s with redraws := s.redraws + 1 }

/-- What happens to the window: a field is typed into, or the analyzer is replaced by one with the modulus `c` (353-357). -/
inductive Op
  | setDist (d : ℝ)
  | setDm (m : ℝ)
  | replace (c : ℝ)

open Classical in
/-- Assigning `distance`. -/
noncomputable def setDist (f : ℝ → Option ℝ) (g : ℝ → ℝ) (d : ℝ) (s : St) : St := if d = s.dist then s else fire f g 2 .dist { s with dist := d }

open Classical in
/-- Assigning `distmod`. -/
noncomputable def setDm (f : ℝ → Option ℝ) (g : ℝ → ℝ) (m : ℝ) (s : St) : St := if m = s.dm then s else fire f g 2 .dm { s with dm := m }

/-- One operation; for a new analyzer `_cmda_late_changed`, spectarget.py 353-355. -/
noncomputable def step (f : ℝ → Option ℝ) (g : ℝ → ℝ) (s : St) : Op → St
  | .setDist d => setDist f g d s
  | .setDm m => setDm f g m s
  | .replace c =>
    let s := setDist f g (g c) { s with cdm := c }
    { s with redraws := s.redraws + 1 }

/-- A history. -/
noncomputable def run (f : ℝ → Option ℝ) (g : ℝ → ℝ) (s : St) (ops : List Op) : St := ops.foldl (step f g) s

/-- The fields before the window opens on an analyzer with modulus `c`: spectarget.py 96-97 and 190-192. -/
def fresh (c : ℝ) : St := { dist := 10, dm := 0, inner := false, cdm := c, redraws := 0 }

/-- The window as it opens: at the end `_cmda_late_changed` is called, spectarget.py 274. -/
noncomputable def opened (f : ℝ → Option ℝ) (g : ℝ → ℝ) (c : ℝ) : St := step f g (fresh c) (.replace c)

/-- Two levels of handlers are enough. -/
theorem depth (f : ℝ → Option ℝ) (g : ℝ → ℝ) (n : ℕ) (w : Which) (s : St) : fire f g (n + 2) w s = fire f g 2 w s := by
  cases w <;> rcases hi : s.inner with _ | _
  · simp only [fire, hi]; cases f s.dist <;> simp
  · simp [fire, hi]
  · simp [fire, hi]
  · simp [fire, hi]

/-- A change of the distance, the flag being down. -/
theorem setDist_down (f : ℝ → Option ℝ) (g : ℝ → ℝ) (d : ℝ) (s : St) (hi : s.inner = false) (hd : d ≠ s.dist) :
    (f d = none → setDist f g d s = { s with dist := d }) ∧
    (∀ v, f d = some v → v ≠ s.dm → setDist f g d s = { dist := d, dm := v, inner := false, cdm := v, redraws := s.redraws + 1 }) ∧
    (f d = some s.dm → setDist f g d s = { s with dist := d, inner := true, cdm := s.dm, redraws := s.redraws + 1 }) := by
  refine ⟨fun h => ?_, fun v h hv => ?_, fun h => ?_⟩ <;> simp [setDist, hd, fire, hi, h]
  simp [hv]

/-- A change of the modulus, the flag being down. -/
theorem setDm_down (f : ℝ → Option ℝ) (g : ℝ → ℝ) (m : ℝ) (s : St) (hi : s.inner = false) (hm : m ≠ s.dm) :
    (g m ≠ s.dist → setDm f g m s = { dist := g m, dm := m, inner := false, cdm := m, redraws := s.redraws + 1 }) ∧
    (g m = s.dist → setDm f g m s = { s with dm := m, inner := true, cdm := m, redraws := s.redraws + 1 }) := by
  refine ⟨fun h => ?_, fun h => ?_⟩ <;> simp [setDm, hm, fire, hi, h]

/-- A change while the flag is up is shown, and that is all. -/
theorem up (f : ℝ → Option ℝ) (g : ℝ → ℝ) (s : St) (hi : s.inner = true) :
    (∀ d, d ≠ s.dist → setDist f g d s = { s with dist := d, inner := false }) ∧
    (∀ m, m ≠ s.dm → setDm f g m s = { s with dm := m, inner := false }) := by
  constructor <;> intro x hx <;> simp [setDist, setDm, hx, fire, hi]

/-- A value that is there already does nothing. -/
theorem same (f : ℝ → Option ℝ) (g : ℝ → ℝ) (s : St) : setDist f g s.dist s = s ∧ setDm f g s.dm s = s := by simp [setDist, setDm]

/-- The window and the analyzer agree. -/
def InSync (g : ℝ → ℝ) (s : St) : Prop := s.inner = false ∧ s.cdm = s.dm ∧ s.dist = g s.dm

/-- Distances typed in are positive. -/
def Positive : Op → Prop
  | .setDist d => 0 < d
  | .setDm _ => True
  | .replace _ => True

theorem setDist_sync (f : ℝ → Option ℝ) (g : ℝ → ℝ) (hgf : ∀ m, f (g m) = some m) (hfg : ∀ d, 0 < d → ∃ m, g m = d) (s : St) (h : InSync g s) (d : ℝ) (hd : 0 < d) :
    InSync g (setDist f g d s) ∧ (setDist f g d s).dist = d ∧ g (setDist f g d s).cdm = d := by
  obtain ⟨hi, hc, hs⟩ := h
  by_cases e : d = s.dist
  · subst e; rw [(same f g s).1]; exact ⟨⟨hi, hc, hs⟩, rfl, by rw [hc, hs]⟩
  · obtain ⟨m, rfl⟩ := hfg d hd
    have hm : m ≠ s.dm := fun h => e (by rw [h, hs])
    rw [(setDist_down f g (g m) s hi e).2.1 m (hgf m) hm]
    exact ⟨⟨rfl, rfl, rfl⟩, rfl, rfl⟩

theorem setDm_sync (f : ℝ → Option ℝ) (g : ℝ → ℝ) (hgf : ∀ m, f (g m) = some m) (s : St) (h : InSync g s) (m : ℝ) :
    InSync g (setDm f g m s) ∧ (setDm f g m s).cdm = m := by
  obtain ⟨hi, hc, hs⟩ := h
  by_cases e : m = s.dm
  · subst e; rw [(same f g s).2]; exact ⟨⟨hi, hc, hs⟩, hc⟩
  · have hm : g m ≠ s.dist := fun h => e (by
      have := hgf m
      rw [h, hs, hgf] at this
      exact (Option.some.inj this).symm)
    rw [(setDm_down f g m s hi e).1 hm]
    exact ⟨⟨rfl, rfl, rfl⟩, rfl⟩

theorem replace_sync (f : ℝ → Option ℝ) (g : ℝ → ℝ) (hgf : ∀ m, f (g m) = some m) (s : St) (h : InSync g s) (c : ℝ) :
    InSync g (step f g s (.replace c)) ∧ (step f g s (.replace c)).cdm = c := by
  obtain ⟨hi, hc, hs⟩ := h
  have hinj : ∀ a b, g a = g b → a = b := fun a b h => by
    have := hgf a
    rw [h, hgf] at this
    exact (Option.some.inj this).symm
  simp only [step]
  by_cases e : g c = s.dist
  · have hcd : c = s.dm := hinj _ _ (by rw [e, hs])
    have := (same f g { s with cdm := c }).1
    simp only [← e] at this
    rw [setDist, if_pos (by simpa using e)]
    exact ⟨⟨hi, hcd, by simpa using hs⟩, rfl⟩
  · have hm : c ≠ s.dm := fun h => e (by rw [h, hs])
    rw [(setDist_down f g (g c) { s with cdm := c } hi e).2.1 c (hgf c) hm]
    exact ⟨⟨rfl, rfl, rfl⟩, rfl⟩

/-- **C240.** If the two conversions were inverse to each other, as they are for nearby objects, then after any history of positive distances, moduli and new
analyzers the window and the analyzer agree, and the analyzer has what was entered last. -/
theorem history (f : ℝ → Option ℝ) (g : ℝ → ℝ) (hgf : ∀ m, f (g m) = some m) (hfg : ∀ d, 0 < d → ∃ m, g m = d) (s : St) (h : InSync g s) (ops : List Op)
    (hops : ∀ o ∈ ops, Positive o) :
    InSync g (run f g s ops) ∧ (∀ m, (run f g s (ops ++ [.setDm m])).cdm = m) ∧ (∀ c, (run f g s (ops ++ [.replace c])).cdm = c) ∧
    (∀ d, 0 < d → g (run f g s (ops ++ [.setDist d])).cdm = d) := by
  have key : InSync g (run f g s ops) := by
    induction ops generalizing s with
    | nil => exact h
    | cons o os ih =>
      refine ih (step f g s o) ?_ (fun x hx => hops x (List.mem_cons_of_mem _ hx))
      cases o with
      | setDist d => exact (setDist_sync f g hgf hfg s h d (hops _ List.mem_cons_self)).1
      | setDm m => exact (setDm_sync f g hgf s h m).1
      | replace c => exact (replace_sync f g hgf s h c).1
  refine ⟨key, fun m => ?_, fun c => ?_, fun d hd => ?_⟩
  · rw [run, List.foldl_append]; exact (setDm_sync f g hgf _ key m).2
  · rw [run, List.foldl_append]; exact (replace_sync f g hgf _ key c).2
  · rw [run, List.foldl_append]; exact (setDist_sync f g hgf hfg _ key d hd).2.2

/-- **C240.** The window opens with the distance of its analyzer, but not always with its modulus: if the analyzer is not at ten parsecs, the distance is converted back, and
window and analyzer get the modulus that this gives; if it fails, the window shows the modulus zero. -/
theorem opens (f : ℝ → Option ℝ) (g : ℝ → ℝ) (c : ℝ) :
    (opened f g c).dist = g c ∧
    (∀ v, g c ≠ 10 → f (g c) = some v → (opened f g c).cdm = v ∧ (opened f g c).dm = v ∧ ((opened f g c).inner = true ↔ v = 0)) ∧
    (g c = 10 → (opened f g c).cdm = c ∧ (opened f g c).dm = 0 ∧ (opened f g c).inner = false) ∧
    (g c ≠ 10 → f (g c) = none → (opened f g c).cdm = c ∧ (opened f g c).dm = 0 ∧ (opened f g c).inner = false) := by
  unfold opened
  simp only [step]
  by_cases e : g c = 10
  · have h : g c = ({ fresh c with cdm := c } : St).dist := e
    rw [setDist, if_pos h]
    simp [fresh, e]
  · obtain ⟨h1, h2, h3⟩ := setDist_down f g (g c) { fresh c with cdm := c } rfl e
    cases hf : f (g c) with
    | none => rw [h1 hf]; simp [fresh, e]
    | some v =>
      by_cases hv : v = 0
      · subst hv; rw [h3 hf]; simp [fresh, e]
      · rw [h2 v hf hv]; simp [e, hv]

/-- **C240.** With inverse conversions it opens in agreement with its analyzer, which keeps its modulus. -/
theorem opens_sync (f : ℝ → Option ℝ) (g : ℝ → ℝ) (hgf : ∀ m, f (g m) = some m) (h0 : g 0 = 10) (c : ℝ) : InSync g (opened f g c) ∧ (opened f g c).cdm = c := by
  obtain ⟨h1, h2, h3, -⟩ := opens f g c
  by_cases e : g c = 10
  · obtain ⟨a, b, d⟩ := h3 e
    have hc : c = 0 := by
      have := hgf c
      rw [e, ← h0, hgf] at this
      exact (Option.some.inj this).symm
    exact ⟨⟨d, by rw [a, b, hc], by rw [h1, b, hc]⟩, a⟩
  · obtain ⟨a, b, d⟩ := h2 c e (hgf c)
    refine ⟨⟨?_, by rw [a, b], by rw [h1, b]⟩, a⟩
    rw [Bool.eq_false_iff]
    intro h
    exact e (by rw [d.1 h, h0])

/-- **C240.** With the formulas without cosmology the hypotheses of `history` hold. -/
theorem plain : (∀ m : ℝ, (5 * Real.logb 10 ((10 : ℝ) ^ (1 + m / 5)) - 5 : ℝ) = m) ∧ (∀ d : ℝ, 0 < d → (10 : ℝ) ^ (1 + (5 * Real.logb 10 d - 5) / 5) = d) ∧
    (10 : ℝ) ^ (1 + (0 : ℝ) / 5) = 10 := by
  refine ⟨fun m => ?_, fun d hd => ?_, ?_⟩
  · rw [Real.logb_rpow (by norm_num) (by norm_num)]; ring
  · have : 1 + (5 * Real.logb 10 d - 5) / 5 = Real.logb 10 d := by ring
    rw [this, Real.rpow_logb (by norm_num) (by norm_num) hd]
  · simp

/-- **C240.** So, with those formulas, any history on a window opened on any analyzer ends in agreement. -/
theorem plain_history (c : ℝ) (ops : List Op) (hops : ∀ o ∈ ops, Positive o) (m : ℝ) :
    InSync (fun m => (10 : ℝ) ^ (1 + m / 5)) (run (fun d => some (5 * Real.logb 10 d - 5)) (fun m => (10 : ℝ) ^ (1 + m / 5))
      (opened (fun d => some (5 * Real.logb 10 d - 5)) (fun m => (10 : ℝ) ^ (1 + m / 5)) c) ops) ∧
    (run (fun d => some (5 * Real.logb 10 d - 5)) (fun m => (10 : ℝ) ^ (1 + m / 5))
      (opened (fun d => some (5 * Real.logb 10 d - 5)) (fun m => (10 : ℝ) ^ (1 + m / 5)) c) (ops ++ [.setDm m])).cdm = m := by
  have hgf : ∀ m : ℝ, (fun d => some (5 * Real.logb 10 d - 5)) ((fun m : ℝ => (10 : ℝ) ^ (1 + m / 5)) m) = some m := fun m => by simp only [plain.1 m]
  have h := history (fun d => some (5 * Real.logb 10 d - 5)) (fun m => (10 : ℝ) ^ (1 + m / 5)) hgf
    (fun d hd => ⟨_, plain.2.1 d hd⟩) _
    (opens_sync (fun d => some (5 * Real.logb 10 d - 5)) (fun m : ℝ => (10 : ℝ) ^ (1 + m / 5)) hgf plain.2.2 c).1 ops hops
  exact ⟨h.1, h.2.1 m⟩

/-- **C240.** When the flag is down and the analyzer has the modulus shown, then it has the modulus shown after any change; the flag is left up exactly when the value
that is computed is already there; a modulus is always taken over, and a distance unless its conversion fails, when only the field itself changes. -/
theorem one_change (f : ℝ → Option ℝ) (g : ℝ → ℝ) (s : St) (hi : s.inner = false) (hc : s.cdm = s.dm) :
    (∀ d, (setDist f g d s).cdm = (setDist f g d s).dm ∧ (setDist f g d s).dist = d ∧ ((setDist f g d s).inner = true ↔ d ≠ s.dist ∧ f d = some s.dm) ∧
      (d ≠ s.dist → f d = none → setDist f g d s = { s with dist := d }) ∧
      (d ≠ s.dist → ∀ v, f d = some v → (setDist f g d s).cdm = v ∧ (setDist f g d s).redraws = s.redraws + 1)) ∧
    (∀ m, (setDm f g m s).cdm = m ∧ (setDm f g m s).dm = m ∧ ((setDm f g m s).inner = true ↔ m ≠ s.dm ∧ g m = s.dist) ∧
      (m ≠ s.dm → (setDm f g m s).dist = g m ∧ (setDm f g m s).redraws = s.redraws + 1)) := by
  constructor
  · intro d
    by_cases e : d = s.dist
    · subst e; rw [(same f g s).1]; simp [hi, hc]
    · obtain ⟨h1, h2, h3⟩ := setDist_down f g d s hi e
      cases hf : f d with
      | none => rw [h1 hf]; simp [hi, hc]
      | some v =>
        by_cases hv : v = s.dm
        · subst hv; rw [h3 hf]; simp [e]
        · rw [h2 v hf hv]; simp [hv]
  · intro m
    by_cases e : m = s.dm
    · subst e; rw [(same f g s).2]; simp [hi, hc]
    · obtain ⟨h1, h2⟩ := setDm_down f g m s hi e
      by_cases hg : g m = s.dist
      · rw [h2 hg]; simp [e, hg]
      · rw [h1 hg]; simp [hg]

/-- **C240.** The conversion of a distance is not the inverse of the other (it uses the cosmology for every distance but zero, phot.py 3124): whenever they differ at a distance
`d`, entering `d`, then its plain modulus `m`, and then any other modulus `m'` leaves the window showing `m'` and the analyzer with `m`; entering `m'` anew is
needed. -/
theorem swallowed (f : ℝ → Option ℝ) (g : ℝ → ℝ) (s : St) (hi : s.inner = false) (d v m m' : ℝ) (hd : d ≠ s.dist) (hf : f d = some v) (hv : v ≠ s.dm)
    (hg : g m = d) (hm : m ≠ v) (hm' : m' ≠ m) :
    let t := run f g s [.setDist d, .setDm m, .setDm m']
    t.dm = m' ∧ t.cdm = m ∧ t.dist = d ∧ t.redraws = s.redraws + 2 ∧ setDm f g m' t = t := by
  have e1 := (setDist_down f g d s hi hd).2.1 v hf hv
  have e2 := (setDm_down f g m { dist := d, dm := v, inner := false, cdm := v, redraws := s.redraws + 1 } rfl hm).2 hg
  have e3 := (up f g { dist := d, dm := m, inner := true, cdm := m, redraws := s.redraws + 1 + 1 } rfl).2 m' hm'
  have e : run f g s [.setDist d, .setDm m, .setDm m'] = { dist := d, dm := m', inner := false, cdm := m, redraws := s.redraws + 1 + 1 } := by
    simp only [run, List.foldl_cons, List.foldl_nil, step, e1, e2]
    exact e3
  intro t
  have ht : t = _ := e
  refine ⟨by rw [ht], by rw [ht], by rw [ht], by rw [ht], ?_⟩
  have := (same f g t).2
  rwa [show t.dm = m' by rw [ht]] at this

/-- **C240.** A new analyzer does not keep its modulus: if it is not where the window is, its distance is converted back, and its modulus is what that gives. -/
theorem replaced (f : ℝ → Option ℝ) (g : ℝ → ℝ) (s : St) (hi : s.inner = false) (c v : ℝ) (hd : g c ≠ s.dist) (hf : f (g c) = some v) :
    (step f g s (.replace c)).cdm = v ∧ (step f g s (.replace c)).dm = v ∧ (step f g s (.replace c)).dist = g c ∧
    (step f g s (.replace c)).redraws = s.redraws + 2 := by
  obtain ⟨_, h2, h3⟩ := setDist_down f g (g c) { s with cdm := c } hi hd
  simp only [step]
  by_cases hv : v = s.dm
  · subst hv; rw [h3 hf]; simp
  · rw [h2 v hf hv]; simp

/-! ## The priority band -/

/-- The field `priband`, and the number of `updatepri` events. -/
structure Pri where
  band : String
  updates : ℕ
  deriving DecidableEq, Repr

/-- `_priband_changed(old,new)`, spectarget.py 314-319, when at most `n` handlers can be nested (`none`: there would be more).  The field has the value `new`;
assigning another value calls the handler again. -/
def bandChanged (valid : List String) : ℕ → String → String → Pri → Option Pri
  | 0, _, _, _ => none
  | n + 1, old, new, s =>
    if new ∈ valid then some { s with updates := s.updates + 1 }
    else
      let w := if new ≠ old then old else ""
      if w = new then some s else bandChanged valid n new w { s with band := w }

/-- Assigning `priband`. -/
def setBand (valid : List String) (n : ℕ) (v : String) (s : Pri) : Option Pri := if v = s.band then some s else bandChanged valid n s.band v { s with band := v }

/-- **C241.** A band the analyzer has is taken; one it has not (so also no band) is put back to the old one if that was one of its bands, and the priorities are
computed once in both cases; and if both are not among its bands, as when the window opens with a colour on its y axis (273), the handlers call each other without end. -/
theorem band_spec (valid : List String) (s : Pri) (v : String) :
    (v ∈ valid → v ≠ s.band → ∀ n, setBand valid (n + 1) v s = some ⟨v, s.updates + 1⟩) ∧
    (v ∉ valid → s.band ∈ valid → ∀ n, setBand valid (n + 2) v s = some ⟨s.band, s.updates + 1⟩) ∧
    (v ∉ valid → s.band ∉ valid → v ≠ s.band → ∀ n, setBand valid n v s = none) := by
  refine ⟨fun h hne n => ?_, fun h hb n => ?_, fun h hb hne n => ?_⟩
  · simp [setBand, hne, bandChanged, h]
  · have hne : v ≠ s.band := fun e => h (e ▸ hb)
    simp [setBand, hne, hne.symm, bandChanged, h, hb]
  · rw [setBand, if_neg hne]
    have key : ∀ n a b (t : Pri), a ∉ valid → b ∉ valid → a ≠ b → bandChanged valid n a b t = none := by
      intro n
      induction n with
      | zero => intros; rfl
      | succ n ih =>
        intro a b t ha hb hab
        simp only [bandChanged, if_neg hb, if_pos hab.symm, if_neg hab]
        exact ih b a _ hb ha hab.symm
    exact key n s.band v _ hb h hne.symm

/-- The handler called with no change (Traits does not do that) takes an unknown band out, if no band is allowed. -/
theorem band_direct (valid : List String) (v : String) (hv : v ∉ valid) (he : "" ∈ valid) (n : ℕ) (s : Pri) :
    bandChanged valid (n + 2) v v s = some ⟨"", s.updates + 1⟩ := by
  have hne : ¬ "" = v := fun e => hv (e ▸ he)
  simp [bandChanged, hv, he, hne]

/-- **C241.** So once a band of the analyzer is there, there always is one. -/
theorem band_stays (valid : List String) (vs : List String) : ∀ (s : Pri), s.band ∈ valid → ∀ n,
    ∃ t, vs.foldlM (fun s v => setBand valid (n + 2) v s) s = some t ∧ t.band ∈ valid ∧ s.updates ≤ t.updates ∧ t.updates ≤ s.updates + vs.length := by
  induction vs with
  | nil => intro s h n; exact ⟨s, rfl, h, le_refl _, le_refl _⟩
  | cons v vs ih =>
    intro s h n
    have hstep : ∃ u, setBand valid (n + 2) v s = some u ∧ u.band ∈ valid ∧ s.updates ≤ u.updates ∧ u.updates ≤ s.updates + 1 := by
      by_cases hv : v ∈ valid
      · by_cases hne : v = s.band
        · exact ⟨s, by simp [setBand, hne], h, le_refl _, Nat.le_succ _⟩
        · exact ⟨_, (band_spec valid s v).1 hv hne (n + 1), hv, Nat.le_succ _, le_refl _⟩
      · exact ⟨_, (band_spec valid s v).2.1 hv h n, h, Nat.le_succ _, le_refl _⟩
    obtain ⟨u, hu, hb, h1, h2⟩ := hstep
    obtain ⟨t, ht, htb, h3, h4⟩ := ih u hb n
    refine ⟨t, ?_, htb, h1.trans h3, ?_⟩
    · rw [List.foldlM_cons, hu]; exact ht
    · rw [List.length_cons]; omega

/-! ## Concrete cases -/

example : setBand ["g", "r"] 5 "x" ⟨"g", 0⟩ = some ⟨"g", 1⟩ := by decide
example : setBand ["g", "r"] 1000 "x" ⟨"", 0⟩ = none := (band_spec ["g", "r"] ⟨"", 0⟩ "x").2.2 (by decide) (by decide) (by decide) 1000
example : (opened (fun d => some (d + 1)) (fun m => m) 10).dm = 0 := ((opens (fun d => some (d + 1)) (fun m => m) 10).2.2.1 rfl).2.1
example : (run (fun d => some (d + 1)) (fun m => m) (opened (fun d => some (d + 1)) (fun m => m) 10) [.setDist 3, .setDm 3, .setDm 7]).cdm = 3 := by
  have h := opens (fun d => some (d + 1)) (fun m => m) 10
  obtain ⟨h3, h4, h5⟩ := h.2.2.1 rfl
  exact (swallowed (fun d => some (d + 1)) (fun m => m) _ h5 3 4 3 7 (by rw [h.1]; norm_num) (by norm_num) (by rw [h4]; norm_num) rfl (by norm_num) (by norm_num)).2.1

end Verif.DistSync
