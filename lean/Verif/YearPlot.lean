import Mathlib.Data.Rat.Defs
import Mathlib.Algebra.Order.Field.Rat
import Mathlib.Tactic.Linarith
import Mathlib.Tactic.NormNum
import Mathlib.Tactic.Ring

/-!
# Rise and set over a year, and the limits of an SED plot (C225, C226)

`yearPlot` (astropysics/obstools.py 1711-1775): what is drawn for one object.  `plotSED` (astropysics/objcat.py 3388-3445): its axis limits.
Exact arithmetic.
-/

namespace Verif.YearPlot

inductive Err
  | type
  | unbound
  deriving DecidableEq

/-- A day as `riseSetTransit` gives it: rise, set, transit in hours, missing where there is none. -/
abbrev Day := Option ℚ × Option ℚ × Option ℚ

/-- The transit drawn (obstools.py:1763): a day back if after `cp12`. -/
def transitAt (cp12 t : ℚ) : ℚ := if t > cp12 then t - 24 else t

/-- The rise subtracted (obstools.py:1768), for the transit drawn. -/
def riseAt (t' r : ℚ) : ℚ := if r > t' then r - 24 else r

/-- The set (obstools.py:1769). -/
def setAt (t' s : ℚ) : ℚ := if s < t' then s + 24 else s

/-- The point of a day and the lower and upper end of its error bar (obstools.py:1761-1770): matplotlib takes the *lower* length first, and is given
`set-transit`. -/
def bar (cp12 : ℚ) (d : ℚ × ℚ × ℚ) : ℚ × ℚ × ℚ :=
  let t := transitAt cp12 d.2.2
  let lower := setAt t d.2.1 - t
  let upper := t - riseAt t d.1
  (t, t - lower, t + upper)

/-- All days: `None - number` is a `TypeError` (obstools.py:1770). -/
def bars (cp12 : ℚ) : List Day → Except Err (List (ℚ × ℚ × ℚ))
  | [] => .ok []
  | (some r, some s, some t) :: l => match bars cp12 l with
    | .ok bs => .ok (bar cp12 (r, s, t) :: bs)
    | .error e => .error e
  | _ :: _ => .error .type

/-! ## Year plots -/

/-- A day with transit at `t` and an arc of `2 d` hours above the horizon, on the clock. -/
structure Arc (r s t d : ℚ) : Prop where
  pos : 0 < d
  half : d < 12
  t0 : 0 ≤ t
  t1 : t < 24
  r0 : 0 ≤ r
  r1 : r < 24
  s0 : 0 ≤ s
  s1 : s < 24
  rise : r = t - d ∨ r = t - d + 24
  set : s = t + d ∨ s = t + d - 24

/-- **C225.** The transit drawn is the transit or a day before it, and lies between midnight and midnight around the centre of the axis. -/
theorem transit_drawn (cp12 t : ℚ) (h0 : cp12 - 24 < t) (h1 : t ≤ cp12 + 24) :
    (transitAt cp12 t = t ∨ transitAt cp12 t = t - 24) ∧ cp12 - 24 < transitAt cp12 t ∧ transitAt cp12 t ≤ cp12 := by
  unfold transitAt
  split
  · next h => exact ⟨Or.inr rfl, by linarith, by linarith⟩
  · next h => exact ⟨Or.inl rfl, h0, by linarith⟩

/-- **C225.** The upper end of the bar is as far above the transit as the rise is *before* it — the bar is upside down —, and 24 hours less if the transit was moved and the rise was
the day before: that cannot be in local time, where the axis ends at 12. -/
theorem upper_end (cp12 r s t d : ℚ) (h : Arc r s t d) :
    (¬ (cp12 < t ∧ t < d) → (bar cp12 (r, s, t)).2.2 = (bar cp12 (r, s, t)).1 + d) ∧
    (cp12 < t ∧ t < d → (bar cp12 (r, s, t)).2.2 = (bar cp12 (r, s, t)).1 + d - 24) ∧
    (cp12 = 12 → ¬ (cp12 < t ∧ t < d)) := by
  obtain ⟨h1, h2, h3, h4, h5, h6, h7, h8, h9, h10⟩ := h
  simp only [bar, riseAt, transitAt]
  refine ⟨?_, ?_, ?_⟩
  · intro hn
    rcases h9 with rfl | rfl
    · split <;> split <;> linarith
    · split
      · next ht => exact absurd ⟨ht, by linarith⟩ hn
      · split <;> linarith
  · rintro ⟨a, b⟩
    rcases h9 with rfl | rfl
    · linarith
    · rw [if_pos a]; split <;> linarith
  · rintro rfl ⟨a, b⟩; linarith

/-- **C225.** Its lower end is as far below the transit as the set is after it, and 24 hours too far if the transit was moved and the set is on the same day
(so in local time if the object transits after noon and sets before midnight). -/
theorem lower_end (cp12 r s t d : ℚ) (h : Arc r s t d) :
    (¬ (cp12 < t ∧ t + d < 24) → (bar cp12 (r, s, t)).2.1 = (bar cp12 (r, s, t)).1 - d) ∧
    (cp12 < t ∧ t + d < 24 → (bar cp12 (r, s, t)).2.1 = (bar cp12 (r, s, t)).1 - d - 24) := by
  obtain ⟨h1, h2, h3, h4, h5, h6, h7, h8, h9, h10⟩ := h
  simp only [bar, setAt, transitAt]
  constructor
  · intro hn
    rcases h10 with rfl | rfl
    · split
      · next ht => exact absurd ⟨ht, h8⟩ hn
      · split <;> linarith
    · split <;> split <;> linarith
  · rintro ⟨a, b⟩
    rcases h10 with rfl | rfl
    · rw [if_pos a]; split <;> linarith
    · linarith

/-- **C225.** One bar a day, in order; it fails exactly when some day has no rise, set or transit. -/
theorem each_day (cp12 : ℚ) (l : List Day) :
    ((∃ d ∈ l, d.1 = none ∨ d.2.1 = none ∨ d.2.2 = none) → bars cp12 l = .error .type) ∧
    ∀ ds : List (ℚ × ℚ × ℚ), l = ds.map (fun d => (some d.1, some d.2.1, some d.2.2)) → bars cp12 l = .ok (ds.map (bar cp12)) := by
  constructor
  · induction l with
    | nil => rintro ⟨d, hd, _⟩; cases hd
    | cons d l ih =>
      rintro ⟨x, hx, hn⟩
      obtain ⟨r, s, t⟩ := d
      cases r with
      | none => rfl
      | some r => cases s with
        | none => rfl
        | some s => cases t with
          | none => rfl
          | some t =>
            have : ∃ d ∈ l, d.1 = none ∨ d.2.1 = none ∨ d.2.2 = none := by
              rcases List.mem_cons.1 hx with rfl | hx
              · simp at hn
              · exact ⟨x, hx, hn⟩
            simp only [bars, ih this]
  · intro ds
    induction ds generalizing l with
    | nil => rintro rfl; rfl
    | cons d ds ih =>
      rintro rfl
      simp only [List.map_cons, bars, ih _ rfl]

/-! ## Limits of an SED plot -/

/-- `np.max` / `np.min` of a non-empty array, given as first element and rest. -/
def amax (v : ℚ × List ℚ) : ℚ := v.2.foldr max v.1
def amin (v : ℚ × List ℚ) : ℚ := v.2.foldr min v.1

/-- A spectrum or photometric measurement: its x values and fluxes, at least one each. -/
abbrev Data := (ℚ × List ℚ) × (ℚ × List ℚ)

/-- The greatest / least over a list of them, `None` for none (objcat.py:3400-3417). -/
def over (f : ℚ → ℚ → ℚ) (g : Data → ℚ) : List Data → Option ℚ
  | [] => none
  | d :: l => some ((l.map g).foldr f (g d))

/-- Python 2's `max` with `None` below all numbers (objcat.py:3402, 3412). -/
def omax : Option ℚ → Option ℚ → Option ℚ
  | none, b => b
  | a, none => a
  | some a, some b => some (max a b)

/-- The limits `((x0, x1), (y0, y1))` (objcat.py:3400-3444).  With both spectra and photometry the code assigns `mny` instead of `mnx` (objcat.py:3422), so `mnx` is unbound;
with neither it subtracts `None`. -/
def limits (specs phots : List Data) : Except Err ((ℚ × ℚ) × (ℚ × ℚ)) :=
  let mxy := omax (over max (fun d => amax d.2) specs) (over max (fun d => amax d.2) phots)
  let mny1 := over min (fun d => amin d.2) specs
  let mny2 := over min (fun d => amin d.2) phots
  let mxx := omax (over max (fun d => amax d.1) specs) (over max (fun d => amax d.1) phots)
  let mnx1 := over min (fun d => amin d.1) specs
  let mnx2 := over min (fun d => amin d.1) phots
  let mny := if mny1 = none then mny2 else if mny2 = none then mny1 else match mny1, mny2 with
    | some a, some b => some (min a b)
    | _, _ => none
  let mnx : Except Err (Option ℚ) := if mnx1 = none then .ok mnx2 else if mnx2 = none then .ok mnx1 else .error .unbound
  match mnx with
  | .error e => .error e
  | .ok mnx =>
    match mxx, mnx, mxy, mny with
    | some xu, some xl, some yu, some yl =>
      .ok ((xl - (xu - xl) * (1/10), xu + (xu - xl) * (1/10)), (yl - (yu - yl) * (1/10), yu + (yu - yl) * (1/10)))
    | _, _, _, _ => .error .type

theorem foldr_max_le (l : List ℚ) (a : ℚ) : (l.foldr max a = a ∨ l.foldr max a ∈ l) ∧ a ≤ l.foldr max a ∧ ∀ v ∈ l, v ≤ l.foldr max a := by
  induction l with
  | nil => simp
  | cons c l ih =>
    obtain ⟨h1, h2, h3⟩ := ih
    refine ⟨?_, h2.trans (le_max_right _ _), ?_⟩
    · simp only [List.foldr_cons]
      rcases max_choice c (l.foldr max a) with h | h
      · rw [h]; right; exact List.mem_cons_self
      · rw [h]; rcases h1 with h1 | h1
        · left; exact h1
        · right; exact List.mem_cons_of_mem _ h1
    · intro v hv
      rcases List.mem_cons.1 hv with rfl | hv
      · exact le_max_left _ _
      · exact (h3 v hv).trans (le_max_right _ _)

theorem foldr_min_le (l : List ℚ) (a : ℚ) : (l.foldr min a = a ∨ l.foldr min a ∈ l) ∧ l.foldr min a ≤ a ∧ ∀ v ∈ l, l.foldr min a ≤ v := by
  induction l with
  | nil => simp
  | cons c l ih =>
    obtain ⟨h1, h2, h3⟩ := ih
    refine ⟨?_, (min_le_right _ _).trans h2, ?_⟩
    · simp only [List.foldr_cons]
      rcases min_choice c (l.foldr min a) with h | h
      · rw [h]; right; exact List.mem_cons_self
      · rw [h]; rcases h1 with h1 | h1
        · left; exact h1
        · right; exact List.mem_cons_of_mem _ h1
    · intro v hv
      rcases List.mem_cons.1 hv with rfl | hv
      · exact min_le_left _ _
      · exact (min_le_right _ _).trans (h3 v hv)

/-- All values of one kind in some data. -/
def values (g : Data → ℚ × List ℚ) (l : List Data) : List ℚ := l.flatMap fun d => (g d).1 :: (g d).2

theorem over_max (g : Data → ℚ × List ℚ) (d : Data) (l : List Data) :
    ∃ m ∈ values g (d :: l), over max (fun d => amax (g d)) (d :: l) = some m ∧ ∀ v ∈ values g (d :: l), v ≤ m := by
  obtain ⟨h1, h2, h3⟩ := foldr_max_le (l.map fun d => amax (g d)) (amax (g d))
  have hd : ∀ d : Data, amax (g d) ∈ (g d).1 :: (g d).2 ∧ ∀ v ∈ (g d).1 :: (g d).2, v ≤ amax (g d) := by
    intro d
    obtain ⟨a, b, c⟩ := foldr_max_le (g d).2 (g d).1
    refine ⟨?_, ?_⟩
    · rcases a with a | a
      · exact List.mem_cons.2 (Or.inl a)
      · exact List.mem_cons_of_mem _ a
    · intro v hv
      rcases List.mem_cons.1 hv with rfl | hv
      · exact b
      · exact c v hv
  refine ⟨_, ?_, rfl, ?_⟩
  · rcases h1 with h1 | h1
    · rw [h1]; exact List.mem_flatMap.2 ⟨d, List.mem_cons_self, (hd d).1⟩
    · obtain ⟨d', hd', e⟩ := List.mem_map.1 h1
      rw [← e]; exact List.mem_flatMap.2 ⟨d', List.mem_cons_of_mem _ hd', (hd d').1⟩
  · intro v hv
    obtain ⟨d', hd', hv⟩ := List.mem_flatMap.1 hv
    have := (hd d').2 v hv
    rcases List.mem_cons.1 hd' with rfl | hd'
    · exact this.trans h2
    · exact this.trans (h3 _ (List.mem_map.2 ⟨d', hd', rfl⟩))

theorem over_min (g : Data → ℚ × List ℚ) (d : Data) (l : List Data) :
    ∃ m ∈ values g (d :: l), over min (fun d => amin (g d)) (d :: l) = some m ∧ ∀ v ∈ values g (d :: l), m ≤ v := by
  obtain ⟨h1, h2, h3⟩ := foldr_min_le (l.map fun d => amin (g d)) (amin (g d))
  have hd : ∀ d : Data, amin (g d) ∈ (g d).1 :: (g d).2 ∧ ∀ v ∈ (g d).1 :: (g d).2, amin (g d) ≤ v := by
    intro d
    obtain ⟨a, b, c⟩ := foldr_min_le (g d).2 (g d).1
    refine ⟨?_, ?_⟩
    · rcases a with a | a
      · exact List.mem_cons.2 (Or.inl a)
      · exact List.mem_cons_of_mem _ a
    · intro v hv
      rcases List.mem_cons.1 hv with rfl | hv
      · exact b
      · exact c v hv
  refine ⟨_, ?_, rfl, ?_⟩
  · rcases h1 with h1 | h1
    · rw [h1]; exact List.mem_flatMap.2 ⟨d, List.mem_cons_self, (hd d).1⟩
    · obtain ⟨d', hd', e⟩ := List.mem_map.1 h1
      rw [← e]; exact List.mem_flatMap.2 ⟨d', List.mem_cons_of_mem _ hd', (hd d').1⟩
  · intro v hv
    obtain ⟨d', hd', hv⟩ := List.mem_flatMap.1 hv
    have := (hd d').2 v hv
    rcases List.mem_cons.1 hd' with rfl | hd'
    · exact h2.trans this
    · exact (h3 _ (List.mem_map.2 ⟨d', hd', rfl⟩)).trans this

/-- **C226.** A plot of both spectra and photometry always fails, and so does one of neither. -/
theorem both_or_neither (specs phots : List Data) :
    (specs ≠ [] → phots ≠ [] → limits specs phots = .error .unbound) ∧ limits [] [] = .error .type := by
  refine ⟨?_, rfl⟩
  intro h1 h2
  cases specs with
  | nil => exact absurd rfl h1
  | cons d l =>
    cases phots with
    | nil => exact absurd rfl h2
    | cons d' l' => simp [limits, over]

/-- **C226.** With only spectra, or only photometry, each axis runs from the least value less a tenth of the range of values to the greatest plus a tenth. -/
theorem one_kind (specs phots all : List Data) (hne : all ≠ []) (h : (specs = all ∧ phots = []) ∨ (specs = [] ∧ phots = all)) :
    ∃ xl xu yl yu, limits specs phots = .ok ((xl - (xu - xl) / 10, xu + (xu - xl) / 10), (yl - (yu - yl) / 10, yu + (yu - yl) / 10)) ∧
      (xl ∈ values Prod.fst all ∧ xu ∈ values Prod.fst all ∧ ∀ v ∈ values Prod.fst all, xl ≤ v ∧ v ≤ xu) ∧
      (yl ∈ values Prod.snd all ∧ yu ∈ values Prod.snd all ∧ ∀ v ∈ values Prod.snd all, yl ≤ v ∧ v ≤ yu) := by
  cases all with
  | nil => exact absurd rfl hne
  | cons d l =>
    obtain ⟨xu, a1, a2, a3⟩ := over_max Prod.fst d l
    obtain ⟨xl, b1, b2, b3⟩ := over_min Prod.fst d l
    obtain ⟨yu, c1, c2, c3⟩ := over_max Prod.snd d l
    obtain ⟨yl, d1, d2, d3⟩ := over_min Prod.snd d l
    refine ⟨xl, xu, yl, yu, ?_, ⟨b1, a1, fun v hv => ⟨b3 v hv, a3 v hv⟩⟩, ⟨d1, c1, fun v hv => ⟨d3 v hv, c3 v hv⟩⟩⟩
    have hd : ∀ x : ℚ, x * (1 / 10) = x / 10 := fun x => by ring
    have n1 : over max (fun d => amax d.1) [] = none := rfl
    rcases h with ⟨rfl, rfl⟩ | ⟨rfl, rfl⟩
    · simp only [limits, a2, b2, c2, d2]
      simp [over, omax, div_eq_mul_inv]
    · simp only [limits, a2, b2, c2, d2]
      simp [over, omax, div_eq_mul_inv]

/-! ## Concrete cases -/

/-- Transit at 20 h, 2 h up on each side: the set at 22 h ends up 26 h from the transit. -/
example : bar 12 (18, 22, 20) = (-4, -30, -2) := by decide +kernel

example : Arc 18 22 20 2 := by constructor <;> norm_num

/-- Transit at 1 h. -/
example : bar 12 (20, 6, 1) = (1, -4, 6) := by decide +kernel

example : Arc 20 6 1 5 := by constructor <;> norm_num

example : (match limits [((1, [2, 3]), (5, [4, 6]))] [] with
    | .ok r => decide (r = ((4/5, 16/5), (19/5, 31/5)))
    | .error _ => false) = true := by decide +kernel

end Verif.YearPlot
