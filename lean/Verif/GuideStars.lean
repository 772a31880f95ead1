import Mathlib.Data.List.Basic
import Mathlib.Algebra.Order.Field.Rat
import Mathlib.Tactic.Linarith
import Mathlib.Data.Rat.Defs

/-!
# Guide and alignment stars in the plots of the target window (astropysics/gui/spectarget.py 268-275, 353-494, 568-574) (C242, C243)

A star is what the analyzer knows of it: the place, the values on the two axes, the magnitude in the band for guide stars, the priority (0 to 1, C198).
Bands are taken to exist; an event that is set runs its handler at once.
-/

namespace Verif.GuideStars

structure Star where
  loc : ℚ × ℚ
  x : ℚ
  y : ℚ
  mag : ℚ
  pri : ℚ
  deriving DecidableEq, Repr

/-- The window: the analyzer's stars, whether `agband` is set, `gstarcut`, `astarcut`, `agigpri`; and then what the plots have: the targets' places, axis values
and priorities (`ra`,`dec`; `x`; `y`; `pri`), and those of guide and alignment stars. -/
structure Win where
  stars : List Star
  band : Bool
  gcut : ℚ
  acut : ℚ
  ig : ℚ
  pts : List (ℚ × ℚ)
  px : List ℚ
  py : List ℚ
  ppri : List ℚ
  gloc : List (ℚ × ℚ)
  aloc : List (ℚ × ℚ)
  gx : List ℚ
  ax : List ℚ
  gy : List ℚ
  ay : List ℚ
  deriving DecidableEq, Repr

/-- `_guidealignmasks`, spectarget.py 489-494: the guide stars. -/
def mg (w : Win) (s : Star) : Bool := decide (s.mag < w.gcut) && decide (w.ig > s.pri)

/-- The alignment stars, spectarget.py 493. -/
def ma (w : Win) (s : Star) : Bool := decide (s.mag < w.acut) && decide (w.ig > s.pri) && !mg w s

/-- The values of the event `updategastars`. -/
inductive Ev
  | all | loc | xd | yd
  deriving DecidableEq

/-- `_updategastars_fired`, spectarget.py 460-488.  Without a band the lists of the colour-magnitude plot are emptied in the data of the other plot (485-488), which does
not use them. -/
def gastars (e : Ev) (w : Win) : Win :=
  if w.band = true then
    let g := w.stars.filter (mg w)
    let a := w.stars.filter (ma w)
    let w := if e = .all ∨ e = .loc then { w with gloc := g.map (·.loc), aloc := a.map (·.loc) } else w
    let w := if e = .all ∨ e = .xd then { w with gx := g.map (·.x), ax := a.map (·.x) } else w
    if e = .all ∨ e = .yd then { w with gy := g.map (·.y), ay := a.map (·.y) } else w
  else { w with gloc := [], aloc := [] }

/-- `_update_x_data`, spectarget.py 382-394. -/
def updateX (w : Win) : Win := gastars .xd { w with px := w.stars.map (·.x) }

/-- `_update_y_data`, spectarget.py 401-413. -/
def updateY (w : Win) : Win := gastars .yd { w with py := w.stars.map (·.y) }

/-- `_updatepri_fired`, spectarget.py 568-574. -/
def updatePri (w : Win) : Win :=
  let w := { w with ppri := w.stars.map (·.pri) }
  if w.ig < 1 then gastars .all w else w

/-- `_updatelocs_fired`, spectarget.py 433-455, without centre and box. -/
def updateLocs (w : Win) : Win := gastars .loc { w with pts := w.stars.map (·.loc) }

/-- `_updatedata_fired`, spectarget.py 358-369. -/
def updateData (w : Win) : Win := gastars .all (updatePri (updateY (updateX w)))

/-- What happens to the window: a cut is changed; the band for guide stars is changed (`none`: cleared) or another band or colour is put on an axis, the argument being
its values; the priorities are computed anew; the places are; another analyzer is put in. -/
inductive Op
  | gcut (c : ℚ)
  | acut (c : ℚ)
  | ig (c : ℚ)
  | band (f : Option (Star → ℚ))
  | xax (f : Star → ℚ)
  | yax (f : Star → ℚ)
  | pri (f : Star → ℚ)
  | locs (f : Star → ℚ × ℚ)
  | analyzer (l : List Star)

/-- The handlers: 270 with 457-458 for the cuts and the band, 321-328 for `agigpri` and the priorities, 268-269 for the axes, 353-355 for the analyzer (its distance,
C240, is left out). -/
def step (w : Win) : Op → Win
  | .gcut c => if c = w.gcut then w else gastars .all { w with gcut := c }
  | .acut c => if c = w.acut then w else gastars .all { w with acut := c }
  | .ig c => if c = w.ig then w else gastars .all (updatePri { w with ig := c })
  | .band none => gastars .all { w with band := false }
  | .band (some f) => gastars .all { w with band := true, stars := w.stars.map fun s => { s with mag := f s } }
  | .xax f => updateX { w with stars := w.stars.map fun s => { s with x := f s } }
  | .yax f => updateY { w with stars := w.stars.map fun s => { s with y := f s } }
  | .pri f => updatePri { w with stars := w.stars.map fun s => { s with pri := f s } }
  | .locs f => updateLocs { w with stars := w.stars.map fun s => { s with loc := f s } }
  | .analyzer l => updateData { w with stars := l }

def run (w : Win) (ops : List Op) : Win := ops.foldl step w

/-! ## Specification -/

/-- A guide star: brighter than the cut for guide stars, and of little priority. -/
def IsGuide (w : Win) (s : Star) : Prop := s.mag < w.gcut ∧ s.pri < w.ig

/-- An alignment star: brighter than the cut for alignment stars, of little priority, and no guide star. -/
def IsAlign (w : Win) (s : Star) : Prop := s.mag < w.acut ∧ s.pri < w.ig ∧ ¬ s.mag < w.gcut

instance (w : Win) (s : Star) : Decidable (IsGuide w s) := inferInstanceAs (Decidable (_ ∧ _))
instance (w : Win) (s : Star) : Decidable (IsAlign w s) := inferInstanceAs (Decidable (_ ∧ _))

/-- The plots show the guide and alignment stars of the analyzer. -/
def Shown (w : Win) : Prop :=
  w.gloc = (w.stars.filter fun s => IsGuide w s).map (·.loc) ∧ w.aloc = (w.stars.filter fun s => IsAlign w s).map (·.loc) ∧
  w.gx = (w.stars.filter fun s => IsGuide w s).map (·.x) ∧ w.ax = (w.stars.filter fun s => IsAlign w s).map (·.x) ∧
  w.gy = (w.stars.filter fun s => IsGuide w s).map (·.y) ∧ w.ay = (w.stars.filter fun s => IsAlign w s).map (·.y)

theorem mg_eq (w : Win) : mg w = fun s => decide (IsGuide w s) := by
  funext s
  rw [Bool.eq_iff_iff, decide_eq_true_eq]
  simp [mg, IsGuide]

theorem ma_eq (w : Win) : ma w = fun s => decide (IsAlign w s) := by
  funext s
  rw [Bool.eq_iff_iff, decide_eq_true_eq]
  simp only [ma, mg, IsAlign, Bool.and_eq_true, Bool.not_eq_true', Bool.and_eq_false_iff, decide_eq_true_eq, decide_eq_false_iff_not, gt_iff_lt]
  constructor
  · rintro ⟨⟨h1, h2⟩, h3⟩; exact ⟨h1, h2, h3.elim id (fun h => absurd h2 h)⟩
  · rintro ⟨h1, h2, h3⟩; exact ⟨⟨h1, h2⟩, .inl h3⟩

/-- What the event sets is right afterwards, whatever the state. -/
theorem all_shown (w : Win) (h : w.band = true) : Shown (gastars .all w) := by
  simp only [gastars, h, if_true, mg_eq, ma_eq, true_or]
  exact ⟨rfl, rfl, rfl, rfl, rfl, rfl⟩

/-- **C242.** No star is both, the two together are stars below one of the cuts, and there are no alignment stars unless their cut is the fainter one. -/
theorem masks (w : Win) (s : Star) :
    ¬ (IsGuide w s ∧ IsAlign w s) ∧ (IsGuide w s ∨ IsAlign w s ↔ s.pri < w.ig ∧ (s.mag < w.gcut ∨ s.mag < w.acut)) ∧ (w.acut ≤ w.gcut → ¬ IsAlign w s) := by
  refine ⟨fun ⟨h1, h2⟩ => h2.2.2 h1.1, ?_, fun h ⟨h1, _, h3⟩ => h3 (lt_of_lt_of_le h1 h)⟩
  unfold IsGuide IsAlign
  by_cases h1 : s.mag < w.gcut <;> by_cases h2 : s.mag < w.acut <;> by_cases h3 : s.pri < w.ig <;> simp [h1, h2, h3]

/-- An event for one of the lists keeps the plots right, if only that list and the targets' data have changed. -/
theorem event_keeps (e : Ev) (w : Win) (hb : w.band = true)
    (hl : e ≠ .all → e ≠ .loc → w.gloc = (w.stars.filter fun s => IsGuide w s).map (·.loc) ∧ w.aloc = (w.stars.filter fun s => IsAlign w s).map (·.loc))
    (hx : e ≠ .all → e ≠ .xd → w.gx = (w.stars.filter fun s => IsGuide w s).map (·.x) ∧ w.ax = (w.stars.filter fun s => IsAlign w s).map (·.x))
    (hy : e ≠ .all → e ≠ .yd → w.gy = (w.stars.filter fun s => IsGuide w s).map (·.y) ∧ w.ay = (w.stars.filter fun s => IsAlign w s).map (·.y)) :
    Shown (gastars e w) := by
  cases e
  · exact all_shown w hb
  all_goals simp only [gastars, hb, if_true, mg_eq, ma_eq, reduceCtorEq, or_false, or_true, if_false, ne_eq, not_false_eq_true, not_true_eq_false, forall_const, false_implies, or_self] at *
  · exact ⟨rfl, rfl, hx.1, hx.2, hy.1, hy.2⟩
  · exact ⟨hl.1, hl.2, rfl, rfl, hy.1, hy.2⟩
  · exact ⟨hl.1, hl.2, hx.1, hx.2, rfl, rfl⟩

/-- Priorities are at most one, and `agigpri` is not one. -/
def Ok (w : Win) : Prop := w.ig ≠ 1 ∧ ∀ s ∈ w.stars, s.pri ≤ 1

/-- What is excluded: clearing the band, an `agigpri` of one, priorities above one. -/
def Allowed : Op → Prop
  | .ig c => c ≠ 1
  | .band f => f ≠ none
  | .pri f => ∀ s, f s ≤ 1
  | .analyzer l => ∀ s ∈ l, s.pri ≤ 1
  | .gcut _ => True
  | .acut _ => True
  | .xax _ => True
  | .yax _ => True
  | .locs _ => True

/-- What an event leaves alone. -/
theorem gastars_rest (e : Ev) (w : Win) : (gastars e w).stars = w.stars ∧ (gastars e w).band = w.band ∧ (gastars e w).gcut = w.gcut ∧
    (gastars e w).acut = w.acut ∧ (gastars e w).ig = w.ig ∧ (gastars e w).pts = w.pts ∧ (gastars e w).px = w.px ∧ (gastars e w).py = w.py ∧
    (gastars e w).ppri = w.ppri := by
  unfold gastars
  cases e <;> split <;> simp

theorem updatePri_rest (w : Win) : (updatePri w).stars = w.stars ∧ (updatePri w).band = w.band ∧ (updatePri w).gcut = w.gcut ∧
    (updatePri w).acut = w.acut ∧ (updatePri w).ig = w.ig ∧ (updatePri w).pts = w.pts ∧ (updatePri w).px = w.px ∧ (updatePri w).py = w.py ∧
    (updatePri w).ppri = w.stars.map (·.pri) := by
  unfold updatePri
  obtain ⟨h1, h2, h3, h4, h5, h6, h7, h8, h9⟩ := gastars_rest .all { w with ppri := w.stars.map (·.pri) }
  simp only
  split
  · exact ⟨h1, h2, h3, h4, h5, h6, h7, h8, h9⟩
  · exact ⟨rfl, rfl, rfl, rfl, rfl, rfl, rfl, rfl, rfl⟩

theorem filter_map_same {β : Type} (l : List Star) (p q : Star → Bool) (r : Star → Star) (f : Star → β) (hp : ∀ s ∈ l, p (r s) = q s) (hf : ∀ s, f (r s) = f s) :
    ((l.map r).filter p).map f = (l.filter q).map f := by
  induction l with
  | nil => rfl
  | cons s l ih =>
    have h := ih fun t ht => hp t (List.mem_cons_of_mem _ ht)
    rw [List.map_cons, List.filter_cons, List.filter_cons, hp s List.mem_cons_self]
    cases q s <;> simp [h, hf]

/-- One step keeps the plots right. -/
theorem step_shown (w : Win) (op : Op) (h : Shown w) (hb : w.band = true) (hok : Ok w) (ha : Allowed op) :
    Shown (step w op) ∧ (step w op).band = true ∧ Ok (step w op) := by
  have after : ∀ (e : Ev) (v : Win), v.band = true → Ok v → (gastars e v).band = true ∧ Ok (gastars e v) := by
    intro e v h1 h2
    obtain ⟨a, b, -, -, c, -⟩ := gastars_rest e v
    exact ⟨b.trans h1, by rw [c]; exact h2.1, by rw [a]; exact h2.2⟩
  obtain ⟨s1, s2, s3, s4, s5, s6⟩ := h
  cases op with
  | gcut c =>
    simp only [step]
    split
    · exact ⟨⟨s1, s2, s3, s4, s5, s6⟩, hb, hok⟩
    · exact ⟨all_shown _ hb, after _ _ hb hok⟩
  | acut c =>
    simp only [step]
    split
    · exact ⟨⟨s1, s2, s3, s4, s5, s6⟩, hb, hok⟩
    · exact ⟨all_shown _ hb, after _ _ hb hok⟩
  | ig c =>
    simp only [step]
    split
    · exact ⟨⟨s1, s2, s3, s4, s5, s6⟩, hb, hok⟩
    · obtain ⟨a, b, -, -, d, -⟩ := updatePri_rest { w with ig := c }
      have hb' : (updatePri { w with ig := c }).band = true := b.trans hb
      refine ⟨all_shown _ hb', after _ _ hb' ⟨by rw [d]; exact ha, by rw [a]; exact hok.2⟩⟩
  | band f =>
    cases f with
    | none => exact absurd rfl ha
    | some f =>
      refine ⟨all_shown _ rfl, after _ _ rfl ⟨hok.1, ?_⟩⟩
      intro s hs
      obtain ⟨t, ht, rfl⟩ := List.mem_map.1 hs
      exact hok.2 t ht
  | xax f =>
    refine ⟨event_keeps .xd _ hb (fun _ _ => ?_) (fun _ h => absurd rfl h) (fun _ _ => ?_), after _ _ hb ⟨hok.1, ?_⟩⟩
    · constructor
      · exact s1.trans (filter_map_same w.stars (fun s => decide (IsGuide w s)) (fun s => decide (IsGuide w s)) (fun s => { s with x := f s }) (·.loc) (fun _ _ => rfl) (fun _ => rfl)).symm
      · exact s2.trans (filter_map_same w.stars (fun s => decide (IsAlign w s)) (fun s => decide (IsAlign w s)) (fun s => { s with x := f s }) (·.loc) (fun _ _ => rfl) (fun _ => rfl)).symm
    · constructor
      · exact s5.trans (filter_map_same w.stars (fun s => decide (IsGuide w s)) (fun s => decide (IsGuide w s)) (fun s => { s with x := f s }) (·.y) (fun _ _ => rfl) (fun _ => rfl)).symm
      · exact s6.trans (filter_map_same w.stars (fun s => decide (IsAlign w s)) (fun s => decide (IsAlign w s)) (fun s => { s with x := f s }) (·.y) (fun _ _ => rfl) (fun _ => rfl)).symm
    · intro s hs
      obtain ⟨t, ht, rfl⟩ := List.mem_map.1 hs
      exact hok.2 t ht
  | yax f =>
    refine ⟨event_keeps .yd _ hb (fun _ _ => ?_) (fun _ _ => ?_) (fun _ h => absurd rfl h), after _ _ hb ⟨hok.1, ?_⟩⟩
    · constructor
      · exact s1.trans (filter_map_same w.stars (fun s => decide (IsGuide w s)) (fun s => decide (IsGuide w s)) (fun s => { s with y := f s }) (·.loc) (fun _ _ => rfl) (fun _ => rfl)).symm
      · exact s2.trans (filter_map_same w.stars (fun s => decide (IsAlign w s)) (fun s => decide (IsAlign w s)) (fun s => { s with y := f s }) (·.loc) (fun _ _ => rfl) (fun _ => rfl)).symm
    · constructor
      · exact s3.trans (filter_map_same w.stars (fun s => decide (IsGuide w s)) (fun s => decide (IsGuide w s)) (fun s => { s with y := f s }) (·.x) (fun _ _ => rfl) (fun _ => rfl)).symm
      · exact s4.trans (filter_map_same w.stars (fun s => decide (IsAlign w s)) (fun s => decide (IsAlign w s)) (fun s => { s with y := f s }) (·.x) (fun _ _ => rfl) (fun _ => rfl)).symm
    · intro s hs
      obtain ⟨t, ht, rfl⟩ := List.mem_map.1 hs
      exact hok.2 t ht
  | locs f =>
    refine ⟨event_keeps .loc _ hb (fun _ h => absurd rfl h) (fun _ _ => ?_) (fun _ _ => ?_), after _ _ hb ⟨hok.1, ?_⟩⟩
    · constructor
      · exact s3.trans (filter_map_same w.stars (fun s => decide (IsGuide w s)) (fun s => decide (IsGuide w s)) (fun s => { s with loc := f s }) (·.x) (fun _ _ => rfl) (fun _ => rfl)).symm
      · exact s4.trans (filter_map_same w.stars (fun s => decide (IsAlign w s)) (fun s => decide (IsAlign w s)) (fun s => { s with loc := f s }) (·.x) (fun _ _ => rfl) (fun _ => rfl)).symm
    · constructor
      · exact s5.trans (filter_map_same w.stars (fun s => decide (IsGuide w s)) (fun s => decide (IsGuide w s)) (fun s => { s with loc := f s }) (·.y) (fun _ _ => rfl) (fun _ => rfl)).symm
      · exact s6.trans (filter_map_same w.stars (fun s => decide (IsAlign w s)) (fun s => decide (IsAlign w s)) (fun s => { s with loc := f s }) (·.y) (fun _ _ => rfl) (fun _ => rfl)).symm
    · intro s hs
      obtain ⟨t, ht, rfl⟩ := List.mem_map.1 hs
      exact hok.2 t ht
  | pri f =>
    have hok' : ∀ s ∈ w.stars.map (fun s => { s with pri := f s }), s.pri ≤ 1 := by
      intro s hs
      obtain ⟨t, ht, rfl⟩ := List.mem_map.1 hs
      exact ha t
    obtain ⟨a, b, -, -, d, -⟩ := updatePri_rest { w with stars := w.stars.map fun s => { s with pri := f s } }
    refine ⟨?_, b.trans hb, by rw [step, d]; exact hok.1, by rw [step, a]; exact hok'⟩
    simp only [step, updatePri]
    split
    · exact all_shown _ hb
    · rename_i hig
      have hig : 1 < w.ig := lt_of_le_of_ne (not_lt.1 hig) (Ne.symm hok.1)
      have hg : ∀ s ∈ w.stars, (decide (IsGuide w { s with pri := f s }) : Bool) = decide (IsGuide w s) := by
        intro s hs
        have h1 := lt_of_le_of_lt (hok.2 s hs) hig
        have h2 := lt_of_le_of_lt (ha s) hig
        simp [IsGuide, h1, h2]
      have hal : ∀ s ∈ w.stars, (decide (IsAlign w { s with pri := f s }) : Bool) = decide (IsAlign w s) := by
        intro s hs
        have h1 := lt_of_le_of_lt (hok.2 s hs) hig
        have h2 := lt_of_le_of_lt (ha s) hig
        simp [IsAlign, h1, h2]
      refine ⟨?_, ?_, ?_, ?_, ?_, ?_⟩
      · exact s1.trans (filter_map_same w.stars (fun s => decide (IsGuide w s)) (fun s => decide (IsGuide w s)) (fun s => { s with pri := f s }) (·.loc) hg (fun _ => rfl)).symm
      · exact s2.trans (filter_map_same w.stars (fun s => decide (IsAlign w s)) (fun s => decide (IsAlign w s)) (fun s => { s with pri := f s }) (·.loc) hal (fun _ => rfl)).symm
      · exact s3.trans (filter_map_same w.stars (fun s => decide (IsGuide w s)) (fun s => decide (IsGuide w s)) (fun s => { s with pri := f s }) (·.x) hg (fun _ => rfl)).symm
      · exact s4.trans (filter_map_same w.stars (fun s => decide (IsAlign w s)) (fun s => decide (IsAlign w s)) (fun s => { s with pri := f s }) (·.x) hal (fun _ => rfl)).symm
      · exact s5.trans (filter_map_same w.stars (fun s => decide (IsGuide w s)) (fun s => decide (IsGuide w s)) (fun s => { s with pri := f s }) (·.y) hg (fun _ => rfl)).symm
      · exact s6.trans (filter_map_same w.stars (fun s => decide (IsAlign w s)) (fun s => decide (IsAlign w s)) (fun s => { s with pri := f s }) (·.y) hal (fun _ => rfl)).symm
  | analyzer l =>
    have e : ∀ v : Win, (updatePri (updateY (updateX v))).stars = v.stars ∧ (updatePri (updateY (updateX v))).band = v.band ∧ (updatePri (updateY (updateX v))).ig = v.ig := by
      intro v
      obtain ⟨a, b, -, -, d, -⟩ := updatePri_rest (updateY (updateX v))
      obtain ⟨a1, b1, -, -, d1, -⟩ := gastars_rest .yd { updateX v with py := (updateX v).stars.map (·.y) }
      obtain ⟨a2, b2, -, -, d2, -⟩ := gastars_rest .xd { v with px := v.stars.map (·.x) }
      exact ⟨a.trans (a1.trans a2), b.trans (b1.trans b2), d.trans (d1.trans d2)⟩
    obtain ⟨a, b, c⟩ := e { w with stars := l }
    have hb' := b.trans hb
    exact ⟨all_shown _ hb', after _ _ hb' ⟨by rw [c]; exact hok.1, by rw [a]; exact ha⟩⟩

/-- **C242.** With a band set, priorities at most one and `agigpri` never exactly one, the plots show the guide and alignment stars of the analyzer after any history. -/
theorem history (ops : List Op) : ∀ w, Shown w → w.band = true → Ok w → (∀ o ∈ ops, Allowed o) → Shown (run w ops) ∧ (run w ops).band = true := by
  induction ops with
  | nil => intro w h hb _ _; exact ⟨h, hb⟩
  | cons o os ih =>
    intro w h hb hok ha
    obtain ⟨h1, h2, h3⟩ := step_shown w o h hb hok (ha o List.mem_cons_self)
    exact ih (step w o) h1 h2 h3 fun p hp => ha p (List.mem_cons_of_mem _ hp)

/-- **C242.** A changed cut, and a band set anew, make the plots right whatever they were, and so does a new analyzer. -/
theorem repaired (w : Win) :
    (w.band = true → ∀ c, c ≠ w.gcut → Shown (step w (.gcut c)) ∧ (step w (.gcut c)).gcut = c) ∧
    (w.band = true → ∀ c, c ≠ w.acut → Shown (step w (.acut c)) ∧ (step w (.acut c)).acut = c) ∧
    (w.band = true → ∀ c, c ≠ w.ig → Shown (step w (.ig c)) ∧ (step w (.ig c)).ig = c) ∧
    (∀ f, Shown (step w (.band (some f))) ∧ (step w (.band (some f))).band = true ∧ (step w (.band (some f))).stars.map (·.mag) = w.stars.map f) := by
  refine ⟨fun hb c hc => ?_, fun hb c hc => ?_, fun hb c hc => ?_, fun f => ?_⟩
  · simp only [step, if_neg hc]
    exact ⟨all_shown _ hb, (gastars_rest _ _).2.2.1⟩
  · simp only [step, if_neg hc]
    exact ⟨all_shown _ hb, (gastars_rest _ _).2.2.2.1⟩
  · simp only [step, if_neg hc]
    obtain ⟨-, b, -, -, d, -⟩ := updatePri_rest { w with ig := c }
    exact ⟨all_shown _ (b.trans hb), (gastars_rest _ _).2.2.2.2.1.trans d⟩
  · obtain ⟨a, b, -⟩ := gastars_rest .all { w with band := true, stars := w.stars.map fun s => { s with mag := f s } }
    refine ⟨all_shown _ rfl, b, ?_⟩
    simp only [step]
    rw [a]
    simp [Function.comp_def]

/-- **C243.** Clearing the band takes the marks off the map of places, but those of the colour-magnitude plot stay, and stay where they were while the axes change. -/
theorem cleared (w : Win) (ops : List Op) (hops : ∀ o ∈ ops, ∃ f, o = .xax f ∨ o = .yax f) :
    (run w (.band none :: ops)).gloc = [] ∧ (run w (.band none :: ops)).aloc = [] ∧ (run w (.band none :: ops)).gx = w.gx ∧ (run w (.band none :: ops)).ax = w.ax ∧
    (run w (.band none :: ops)).gy = w.gy ∧ (run w (.band none :: ops)).ay = w.ay := by
  have key : ∀ ops : List Op, (∀ o ∈ ops, ∃ f, o = .xax f ∨ o = .yax f) → ∀ v : Win, v.band = false → v.gloc = [] → v.aloc = [] →
      (run v ops).gloc = [] ∧ (run v ops).aloc = [] ∧ (run v ops).gx = v.gx ∧ (run v ops).ax = v.ax ∧ (run v ops).gy = v.gy ∧ (run v ops).ay = v.ay := by
    intro ops
    induction ops with
    | nil => intro _ v _ h1 h2; exact ⟨h1, h2, rfl, rfl, rfl, rfl⟩
    | cons o os ih =>
      intro ho v hb h1 h2
      obtain ⟨f, rfl | rfl⟩ := ho o List.mem_cons_self
      · have := ih (fun p hp => ho p (List.mem_cons_of_mem _ hp)) (step v (.xax f)) (by simp [step, updateX, gastars, hb]) (by simp [step, updateX, gastars, hb])
          (by simp [step, updateX, gastars, hb])
        simpa [run, step, updateX, gastars, hb] using this
      · have := ih (fun p hp => ho p (List.mem_cons_of_mem _ hp)) (step v (.yax f)) (by simp [step, updateY, gastars, hb]) (by simp [step, updateY, gastars, hb])
          (by simp [step, updateY, gastars, hb])
        simpa [run, step, updateY, gastars, hb] using this
  have := key ops hops (step w (.band none)) (by simp [step, gastars]) (by simp [step, gastars]) (by simp [step, gastars])
  simpa [run, step, gastars] using this

/-- **C243.** At an `agigpri` of one or more, new priorities do not reach the marks. -/
theorem stale (w : Win) (f : Star → ℚ) (h : 1 ≤ w.ig) :
    (step w (.pri f)).gloc = w.gloc ∧ (step w (.pri f)).aloc = w.aloc ∧ (step w (.pri f)).gx = w.gx ∧ (step w (.pri f)).gy = w.gy ∧
    (step w (.pri f)).ppri = w.stars.map f ∧ (step w (.pri f)).stars.map (·.pri) = w.stars.map f := by
  simp [step, updatePri, not_lt.2 h, Function.comp_def]

/-- **C243.** The targets' values follow the axes, the priorities and the places; a new analyzer brings its values and priorities, but the map goes on showing
the places of the old one's targets. -/
theorem targets (w : Win) :
    (∀ f, (step w (.xax f)).px = w.stars.map f ∧ (step w (.xax f)).py = w.py) ∧ (∀ f, (step w (.yax f)).py = w.stars.map f ∧ (step w (.yax f)).px = w.px) ∧
    (∀ f, (step w (.pri f)).ppri = w.stars.map f) ∧ (∀ f, (step w (.locs f)).pts = w.stars.map f) ∧
    (∀ l, (step w (.analyzer l)).px = l.map (·.x) ∧ (step w (.analyzer l)).py = l.map (·.y) ∧ (step w (.analyzer l)).ppri = l.map (·.pri) ∧
      (step w (.analyzer l)).pts = w.pts) := by
  refine ⟨fun f => ?_, fun f => ?_, fun f => ?_, fun f => ?_, fun l => ?_⟩
  · obtain ⟨-, -, -, -, -, -, h1, h2, -⟩ := gastars_rest .xd { w with stars := w.stars.map (fun s => { s with x := f s }), px := w.stars.map f }
    have e : step w (.xax f) = gastars .xd { w with stars := w.stars.map (fun s => { s with x := f s }), px := w.stars.map f } := by
      simp [step, updateX, Function.comp_def]
    rw [e]; exact ⟨h1, h2⟩
  · obtain ⟨-, -, -, -, -, -, h1, h2, -⟩ := gastars_rest .yd { w with stars := w.stars.map (fun s => { s with y := f s }), py := w.stars.map f }
    have e : step w (.yax f) = gastars .yd { w with stars := w.stars.map (fun s => { s with y := f s }), py := w.stars.map f } := by
      simp [step, updateY, Function.comp_def]
    rw [e]; exact ⟨h2, h1⟩
  · have := (updatePri_rest { w with stars := w.stars.map fun s => { s with pri := f s } }).2.2.2.2.2.2.2.2
    simp only [step]
    rw [this]; simp [Function.comp_def]
  · have := (gastars_rest .loc { w with stars := w.stars.map (fun s => { s with loc := f s }), pts := (w.stars.map fun s => { s with loc := f s }).map (·.loc) }).2.2.2.2.2.1
    simp only [step, updateLocs]
    rw [this]; simp [Function.comp_def]
  · obtain ⟨x1, -, -, -, -, x6, x7, -, -⟩ := gastars_rest .xd { w with stars := l, px := l.map (·.x) }
    obtain ⟨y1, -, -, -, -, y6, y7, y8, -⟩ := gastars_rest .yd { updateX { w with stars := l } with py := (updateX { w with stars := l }).stars.map (·.y) }
    obtain ⟨p1, -, -, -, -, p6, p7, p8, p9⟩ := updatePri_rest (updateY (updateX { w with stars := l }))
    obtain ⟨-, -, -, -, -, q6, q7, q8, q9⟩ := gastars_rest .all (updatePri (updateY (updateX { w with stars := l })))
    refine ⟨q7.trans (p7.trans (y7.trans x7)), q8.trans (p8.trans (y8.trans ?_)), q9.trans (p9.trans ?_), q6.trans (p6.trans (y6.trans x6))⟩
    · exact congrArg _ x1
    · exact congrArg _ (y1.trans x1)

/-! ## Concrete cases -/

def bright : Star := ⟨(1, 2), 1, 14, 14, 0⟩
def middle : Star := ⟨(3, 4), 2, 18, 18, 1/5⟩
def target : Star := ⟨(5, 6), 3, 15, 15, 1⟩
def start : Win := ⟨[bright, middle, target], true, 16, 37/2, 1/2, [], [], [], [], [], [], [], [], [], []⟩

example : (run start [.yax (·.y), .gcut 17]).gloc = [(1, 2)] ∧ (run start [.yax (·.y), .gcut 17]).ay = [18] := by decide +kernel
example : Shown (gastars .all start) ∧ Ok start := ⟨all_shown _ rfl, by unfold Ok; decide +kernel⟩
example : (run (gastars .all start) [.band none, .xax (·.y)]).gx = [1] ∧ (run (gastars .all start) [.band none, .xax (·.y)]).gloc = [] := by decide +kernel
/-- At exactly one, the plots are wrong after new priorities. -/
example : ¬ Shown (run (gastars .all start) [.ig 1, .pri fun _ => 1]) := by unfold Shown; decide +kernel

end Verif.GuideStars
