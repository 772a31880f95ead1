import Mathlib.Data.Rat.Defs
import Mathlib.Data.List.Basic
import Mathlib.Algebra.Order.Field.Rat
import Mathlib.Tactic.Linarith
import Mathlib.Tactic.FieldSimp
import Mathlib.Tactic.Ring
import Mathlib.Tactic.NormNum

/-!
# Helpers for plots (astropysics/plotting.py 58-189, 275-290): `mpl_context`, `logerrplot` and the ticks of `add_mapped_axis` (C214-C216)

Numbers are exact; drawing is a list of calls.
-/

namespace Verif.PlotHelpers

/-! ## Error bars on logarithmic axes -/

inductive Err
  | value
  | attribute
  | assertion
  deriving DecidableEq

/-- One point with lower and upper error and whether it is shown as a limit. -/
structure Pt where
  x : ℚ
  lo : ℚ
  hi : ℚ
  lim : Bool
  deriving DecidableEq

/-- plotting.py 148-152: points that are not positive become limits at the size of their lower error. -/
def fixZero (bs : ℚ) (p : Pt) : Pt := if p.x ≤ 0 then ⟨p.lo, p.lo * bs, 0, true⟩ else p

/-- plotting.py 156-158: error bars that reach zero become limits. -/
def fixNeg (bs : ℚ) (p : Pt) : Pt := if p.x - p.lo ≤ 0 then { p with lo := p.x * bs, lim := true } else p

/-- Errors: none, one for all, one for each, or lower and upper ones. -/
inductive Errs
  | none
  | one (v : ℚ)
  | each (l : List ℚ)
  | two (lo hi : List ℚ)

/-- `fixaxis`, plotting.py 110-160: positions, then (with errors) the points with errors and limits.  `lolims` is one flag or one for each. -/
def fixaxis (bs : ℚ) (data : List ℚ) (err : Errs) (lolims : Bool ⊕ List Bool) : Except Err (List ℚ × Option (List Pt)) :=
  let withErrs (e : List (ℚ × ℚ)) : Except Err (List ℚ × Option (List Pt)) :=
    let lims := match lolims with
      | .inl b => List.replicate data.length b
      | .inr [b] => List.replicate data.length b
      | .inr l => l
    if lims.length = data.length then
      let pts := ((data.zip e).zip lims).map fun q => fixNeg bs (fixZero bs ⟨q.1.1, q.1.2.1, q.1.2.2, q.2⟩)
      .ok (pts.map Pt.x, some pts)
    else .error .assertion
  match err with
  | .none => match data.filter (fun v => decide (0 < v)) with
    | [] => .error .value
    | a :: l => .ok (data.map fun v => if 0 < v then v else bs * l.foldl min a, Option.none)
  | .one v => withErrs (List.replicate data.length (v, v))
  | .each [v] => withErrs (List.replicate data.length (v, v))
  | .each l => if l.length = data.length then withErrs (l.map fun v => (v, v)) else .error .value
  | .two lo hi => if lo.length = data.length ∧ hi.length = data.length then withErrs (lo.zip hi) else .error .value

/-- What is given to `errorbar` as vertical and horizontal errors, plotting.py 172-186: for `logaxes='x'` they are exchanged. -/
def passed {A : Type} (logaxes : String) (xerr yerr : A) : Except Err (A × A) :=
  if logaxes = "y" then .ok (yerr, xerr) else if logaxes = "x" then .ok (xerr, yerr) else if logaxes = "xy" then .ok (yerr, xerr) else .error .value

theorem foldl_min_le (l : List ℚ) (a : ℚ) : l.foldl min a ≤ a ∧ (∀ v ∈ l, l.foldl min a ≤ v) ∧ (l.foldl min a = a ∨ l.foldl min a ∈ l) := by
  induction l generalizing a with
  | nil => simp
  | cons b l ih =>
    obtain ⟨h1, h2, h3⟩ := ih (min a b)
    refine ⟨h1.trans (min_le_left _ _), ?_, ?_⟩
    · intro v hv
      rcases List.mem_cons.1 hv with rfl | hv
      · exact h1.trans (min_le_right _ _)
      · exact h2 v hv
    · rw [List.foldl_cons]
      rcases h3 with h | h
      · rcases min_choice a b with e | e
        · left; rw [h, e]
        · right; rw [h, e]; simp
      · right; simp [h]

/-- C214: without errors, positive values stay and all others are put at `boundscale` times the smallest positive one, so that all are positive; it fails exactly if
there is no positive value. -/
theorem no_errors (bs : ℚ) (data : List ℚ) (lims : Bool ⊕ List Bool) :
    ((∀ v ∈ data, v ≤ 0) → fixaxis bs data .none lims = .error .value) ∧
    ((∃ v ∈ data, 0 < v) → ∃ m, (m ∈ data ∧ 0 < m ∧ ∀ v ∈ data, 0 < v → m ≤ v) ∧
      fixaxis bs data .none lims = .ok (data.map fun v => if 0 < v then v else bs * m, none)) := by
  constructor
  · intro h
    have : data.filter (fun v => decide (0 < v)) = [] := by
      rw [List.filter_eq_nil_iff]; intro v hv; simpa using h v hv
    simp only [fixaxis, this]
  · rintro ⟨v, hv, hpos⟩
    have hmem : v ∈ data.filter (fun v => decide (0 < v)) := List.mem_filter.2 ⟨hv, by simpa using hpos⟩
    cases hf : data.filter (fun v => decide (0 < v)) with
    | nil => rw [hf] at hmem; simp at hmem
    | cons a l =>
      obtain ⟨h1, h2, h3⟩ := foldl_min_le l a
      have hin : l.foldl min a ∈ data.filter (fun v => decide (0 < v)) := by
        rw [hf]
        rcases h3 with h | h
        · rw [h]; simp
        · simp [h]
      refine ⟨l.foldl min a, ⟨(List.mem_filter.1 hin).1, by simpa using (List.mem_filter.1 hin).2, fun w hw hwp => ?_⟩, by simp only [fixaxis, hf]⟩
      have : w ∈ a :: l := by rw [← hf]; exact List.mem_filter.2 ⟨hw, by simpa using hwp⟩
      rcases List.mem_cons.1 this with rfl | hwl
      · exact h1
      · exact h2 w hwl

/-- C214: a point with errors: if it and the lower end of its bar are positive nothing changes; a positive point whose bar reaches zero keeps its place and its upper
error and becomes a limit with the bar `boundscale` of its value; any other point is put at its lower error as a limit, without upper error. -/
theorem point (bs : ℚ) (p : Pt) :
    (0 < p.x → 0 < p.x - p.lo → fixNeg bs (fixZero bs p) = p) ∧
    (0 < p.x → p.x - p.lo ≤ 0 → fixNeg bs (fixZero bs p) = ⟨p.x, p.x * bs, p.hi, true⟩) ∧
    (p.x ≤ 0 → fixNeg bs (fixZero bs p) = ⟨p.lo, p.lo * bs, 0, true⟩) := by
  refine ⟨fun h1 h2 => ?_, fun h1 h2 => ?_, fun h1 => ?_⟩
  · simp [fixZero, fixNeg, not_le.2 h1, not_le.2 h2]
  · simp [fixZero, fixNeg, not_le.2 h1, h2]
  · simp only [fixZero, fixNeg, if_pos h1]
    split_ifs <;> rfl

/-- C214: with a bound scale below 1, everything drawn can be shown on a logarithmic axis as soon as the points that are not positive have positive lower errors;
(limit) a point that is not positive and has no error stays off the axis. -/
theorem positive (bs : ℚ) (hb : bs < 1) (p : Pt) (h : p.x ≤ 0 → 0 < p.lo) :
    0 < (fixNeg bs (fixZero bs p)).x ∧ 0 < (fixNeg bs (fixZero bs p)).x - (fixNeg bs (fixZero bs p)).lo := by
  obtain ⟨h1, h2, h3⟩ := point bs p
  by_cases hx : p.x ≤ 0
  · rw [h3 hx]
    have := h hx
    exact ⟨this, by simp only; nlinarith⟩
  · have hx := not_le.1 hx
    by_cases hl : p.x - p.lo ≤ 0
    · rw [h2 hx hl]
      exact ⟨hx, by simp only; nlinarith⟩
    · rw [h1 hx (not_le.1 hl)]
      exact ⟨hx, not_le.1 hl⟩

theorem zero_without_error (bs : ℚ) (p : Pt) (hx : p.x ≤ 0) (hl : p.lo ≤ 0) : (fixNeg bs (fixZero bs p)).x ≤ 0 := by
  rw [(point bs p).2.2 hx]; exact hl

/-- C214: every point is treated on its own, in order, with its own errors and flag. -/
theorem each_point (bs : ℚ) (data lo hi : List ℚ) (flags : List Bool) (h1 : lo.length = data.length) (h2 : hi.length = data.length) (h3 : flags.length = data.length)
    (h4 : 2 ≤ data.length) :
    ∃ pts, fixaxis bs data (.two lo hi) (.inr flags) = .ok (pts.map Pt.x, some pts) ∧ pts.length = data.length ∧
      ∀ (i : ℕ) (x l u : ℚ) (f : Bool), data[i]? = some x → lo[i]? = some l → hi[i]? = some u → flags[i]? = some f → pts[i]? = some (fixNeg bs (fixZero bs ⟨x, l, u, f⟩)) := by
  refine ⟨((data.zip (lo.zip hi)).zip flags).map fun q => fixNeg bs (fixZero bs ⟨q.1.1, q.1.2.1, q.1.2.2, q.2⟩), ?_, by simp [h1, h2, h3], ?_⟩
  · unfold fixaxis
    rw [show flags = flags from rfl]
    match flags, h3 with
    | [], h3 => simp at h3; omega
    | [b], h3 => simp at h3; omega
    | b :: c :: l, h3 =>
      simp only [h1, h2, and_self, if_true]
      rw [if_pos h3]
  · intro i x l u f e1 e2 e3 e4
    simp [List.getElem?_map, List.getElem?_zip_eq_some, List.zip, List.getElem?_zipWith, e1, e2, e3, e4]

/-- C214: one error for all points means the same lower and upper error for each, and one flag is the flag of all. -/
theorem one_error (bs v : ℚ) (data : List ℚ) (b : Bool) :
    fixaxis bs data (.one v) (.inl b) = .ok ((data.map fun x => fixNeg bs (fixZero bs ⟨x, v, v, b⟩)).map Pt.x,
      some (data.map fun x => fixNeg bs (fixZero bs ⟨x, v, v, b⟩))) := by
  have h : ((data.zip (List.replicate data.length (v, v))).zip (List.replicate data.length b)).map
      (fun q => fixNeg bs (fixZero bs ⟨q.1.1, q.1.2.1, q.1.2.2, q.2⟩)) = data.map fun x => fixNeg bs (fixZero bs ⟨x, v, v, b⟩) := by
    induction data with
    | nil => rfl
    | cons x data ih => simp only [List.length_cons, List.replicate_succ, List.zip_cons_cons, List.map_cons, ih]
  simp only [fixaxis, List.length_replicate, if_true, h]

/-- C214, limit: on a horizontal logarithmic axis the two errors are exchanged. -/
theorem exchanged {A : Type} (xerr yerr : A) : passed "y" xerr yerr = .ok (yerr, xerr) ∧ passed "xy" xerr yerr = .ok (yerr, xerr) ∧
    passed "x" xerr yerr = .ok (xerr, yerr) := by
  refine ⟨rfl, ?_, ?_⟩ <;> simp [passed]

/-! ## The context of a plot -/

inductive Call
  | clf
  | save (fn : String)
  | draw
  | drawIfInteractive
  | show
  deriving DecidableEq

/-- `with mpl_context(show,clf,savefn): body`, plotting.py 60-99.  The body is what it does to the interactive flag and whether it raises; the result is the flag
afterwards, the calls before and after the body, and whether the exception is passed on. -/
def context (default : Bool) (sh : Option Bool) (clf : Bool) (savefn : Option String) (inter : Bool) (body : Bool → Bool × Bool) :
    Bool × List Call × List Call × Bool :=
  let sh := sh.getD default
  let before := if clf then [Call.clf] else []
  let r := body false
  let inter' := inter
  if r.2 then (inter', before, [], true)
  else (inter', before, (match savefn with
      | some s => if s = "" then [] else [Call.save s]
      | none => []) ++ (if sh then [Call.draw, Call.show] else [Call.drawIfInteractive]), false)

/-- C215: whatever the body does, and whether it raises or not, the interactive flag is afterwards what it was before; an exception is passed on and then nothing is
saved or shown; else the figure is saved exactly if a name is given, and shown exactly if asked. -/
theorem context_restores (default : Bool) (sh : Option Bool) (clf : Bool) (savefn : Option String) (inter : Bool) (body : Bool → Bool × Bool) :
    (context default sh clf savefn inter body).1 = inter ∧
    (Call.clf ∈ (context default sh clf savefn inter body).2.1 ↔ clf = true) ∧
    ((body false).2 = true → (context default sh clf savefn inter body).2.2 = ([], true)) ∧
    ((body false).2 = false → (context default sh clf savefn inter body).2.2.2 = false ∧
      (∀ s, Call.save s ∈ (context default sh clf savefn inter body).2.2.1 ↔ savefn = some s ∧ s ≠ "") ∧
      (Call.show ∈ (context default sh clf savefn inter body).2.2.1 ↔ sh = some true ∨ sh = none ∧ default = true)) := by
  unfold context
  cases hb : (body false).2 <;> cases clf <;> cases savefn <;> rcases sh with _ | _ | _ <;> cases default <;> simp <;> (try split_ifs) <;> simp_all <;>
    (intro s; constructor <;> intro hs <;> simp_all)

/-! ## Ticks of a mapped axis -/

/-- `numpy.linspace` -/
def linspace (a b : ℚ) (n : ℕ) : List ℚ := (List.range n).map fun i : ℕ => a + (i : ℚ) * ((b - a) / (n - 1))

/-- `x[::s]` -/
def strided (x : List ℚ) (s : ℕ) : List ℚ := (List.range ((x.length + s - 1) / s)).filterMap fun i => x[i * s]?

/-- plotting.py 262-264: major and minor ticks. -/
def ticks (a b : ℚ) (major minor : ℕ) : List ℚ × List ℚ :=
  let x := linspace a b (major + minor * (major - 1))
  let xa := strided x (minor + 1)
  (xa, x.filter fun v => xa.all fun w => decide (w ≠ v))

theorem count (k m : ℕ) : k + 1 + m * (k + 1 - 1) = k * (m + 1) + 1 := by
  rw [Nat.add_sub_cancel, Nat.mul_add, Nat.mul_one, Nat.mul_comm m k]; omega

theorem lin_get (a b : ℚ) (n i : ℕ) (h : i < n) : (linspace a b n)[i]? = some (a + i * ((b - a) / (n - 1))) := by
  simp [linspace, h]

/-- C216: there are exactly `majorticks` major ticks, equally spaced from one end of the axis to the other. -/
theorem major_ticks (a b : ℚ) (k m : ℕ) :
    (ticks a b (k + 1) m).1 = (List.range (k + 1)).map fun i : ℕ => a + (i : ℚ) * ((b - a) / k) := by
  unfold ticks strided
  simp only
  rw [count]
  have hl : (linspace a b (k * (m + 1) + 1)).length = k * (m + 1) + 1 := by simp [linspace]
  rw [hl]
  have hd : (k * (m + 1) + 1 + (m + 1) - 1) / (m + 1) = k + 1 := by
    rw [show k * (m + 1) + 1 + (m + 1) - 1 = (k + 1) * (m + 1) by rw [Nat.add_mul]; omega]
    exact Nat.mul_div_cancel _ (by omega)
  rw [hd]
  rw [← List.filterMap_eq_map]
  apply List.filterMap_congr
  intro i hi
  have hi : i < k + 1 := List.mem_range.1 hi
  rw [lin_get _ _ _ _ (by nlinarith [Nat.mul_le_mul_right (m + 1) (show i ≤ k by omega)])]
  simp only [Function.comp, Option.some.injEq, add_right_inj]
  push_cast
  by_cases hk : k = 0
  · subst hk
    have : i = 0 := by omega
    subst this
    simp
  · have hk' : (k : ℚ) ≠ 0 := by exact_mod_cast hk
    have hm' : (m : ℚ) + 1 ≠ 0 := by positivity
    rw [show (k : ℚ) * (m + 1) + 1 - 1 = k * (m + 1) by ring]
    field_simp

theorem range_blocks (k m : ℕ) : List.range (k * (m + 1) + 1) = ((List.range k).flatMap fun i => (List.range (m + 1)).map fun j => i * (m + 1) + j) ++ [k * (m + 1)] := by
  have h : List.range (k * (m + 1)) = (List.range k).flatMap fun i => (List.range (m + 1)).map fun j => i * (m + 1) + j := by
    induction k with
    | zero => simp
    | succ k ih =>
      rw [List.range_succ (n := k), List.flatMap_append, ← ih, Nat.succ_mul, List.range_add]
      simp
  rw [List.range_succ, h]

/-- C216: on an axis with different ends there are exactly `minorticks` minor ticks between every two neighbouring major ones, equally spaced, and no others. -/
theorem minor_ticks (a b : ℚ) (hab : a ≠ b) (k m : ℕ) (hk : 1 ≤ k) :
    (ticks a b (k + 1) m).2 = (List.range k).flatMap fun i : ℕ => (List.range m).map fun j : ℕ => a + ((i : ℚ) + ((j : ℚ) + 1) / ((m : ℚ) + 1)) * ((b - a) / k) := by
  have hmaj := major_ticks a b k m
  unfold ticks at hmaj ⊢
  simp only at hmaj ⊢
  rw [hmaj, count]
  unfold linspace
  rw [List.filter_map, range_blocks, List.filter_append, List.filter_flatMap]
  have hk' : (k : ℚ) ≠ 0 := by exact_mod_cast (show k ≠ 0 by omega)
  have hm' : (m : ℚ) + 1 ≠ 0 := by positivity
  have hba : b - a ≠ 0 := sub_ne_zero.2 (Ne.symm hab)
  have hstep : ∀ q : ℕ, (a + q * ((b - a) / (((k * (m + 1) + 1 : ℕ) : ℚ) - 1))) = a + (q / (m + 1)) * ((b - a) / k) := by
    intro q
    push_cast
    rw [show (k : ℚ) * (m + 1) + 1 - 1 = k * (m + 1) by ring]
    field_simp
  have hp : ∀ q : ℕ, q ≤ k * (m + 1) →
      (((List.range (k + 1)).map fun i : ℕ => a + (i : ℚ) * ((b - a) / k)).all fun w => decide (w ≠ a + q * ((b - a) / (((k * (m + 1) + 1 : ℕ) : ℚ) - 1)))) =
      !decide ((m + 1) ∣ q) := by
    intro q hq
    rw [hstep]
    rw [Bool.eq_iff_iff]
    simp only [List.all_map, List.all_eq_true, List.mem_range, Function.comp, decide_eq_true_eq, Bool.not_eq_true', decide_eq_false_iff_not]
    constructor
    · rintro h ⟨c, rfl⟩
      have hc : c < k + 1 := by
        by_contra hc
        have : (k + 1) * (m + 1) ≤ c * (m + 1) := Nat.mul_le_mul_right _ (by omega)
        rw [Nat.mul_comm (m + 1) c] at hq
        rw [Nat.add_mul] at this
        omega
      apply h c hc
      push_cast
      field_simp
    · intro h i hi he
      apply h
      have h1 : (i : ℚ) * ((b - a) / k) = (q / (m + 1)) * ((b - a) / k) := by linarith
      have h2 : (i : ℚ) = q / (m + 1) := mul_right_cancel₀ (div_ne_zero hba hk') h1
      rw [eq_div_iff hm'] at h2
      refine ⟨i, ?_⟩
      have : i * (m + 1) = q := by exact_mod_cast h2
      rw [← this, Nat.mul_comm]
  have hlast : [k * (m + 1)].filter ((fun v => ((List.range (k + 1)).map fun i : ℕ => a + (i : ℚ) * ((b - a) / k)).all fun w => decide (w ≠ v)) ∘
      fun i : ℕ => a + (i : ℚ) * ((b - a) / (((k * (m + 1) + 1 : ℕ) : ℚ) - 1))) = [] := by
    rw [List.filter_eq_nil_iff]
    intro q hq
    rw [List.mem_singleton] at hq
    subst hq
    rw [Function.comp, hp _ le_rfl]
    simp
  rw [hlast, List.append_nil, List.map_flatMap]
  apply List.flatMap_congr
  intro i hi
  have hi : i < k := List.mem_range.1 hi
  rw [List.filter_map, List.map_map]
  have hf : (List.range (m + 1)).filter (((fun v => ((List.range (k + 1)).map fun i : ℕ => a + (i : ℚ) * ((b - a) / k)).all fun w => decide (w ≠ v)) ∘
      fun i : ℕ => a + (i : ℚ) * ((b - a) / (((k * (m + 1) + 1 : ℕ) : ℚ) - 1))) ∘ fun j => i * (m + 1) + j) = (List.range m).map (· + 1) := by
    have e : (List.range (m + 1)).filter (((fun v => ((List.range (k + 1)).map fun i : ℕ => a + (i : ℚ) * ((b - a) / k)).all fun w => decide (w ≠ v)) ∘
      fun i : ℕ => a + (i : ℚ) * ((b - a) / (((k * (m + 1) + 1 : ℕ) : ℚ) - 1))) ∘ fun j => i * (m + 1) + j) = (List.range (m + 1)).filter fun j => !decide (j = 0) := by
      apply List.filter_congr
      intro j hj
      have hj : j < m + 1 := List.mem_range.1 hj
      have hle : i * (m + 1) + j ≤ k * (m + 1) := by
        have := Nat.mul_le_mul_right (m + 1) (show i + 1 ≤ k by omega)
        rw [Nat.add_mul] at this
        omega
      simp only [Function.comp]
      rw [hp _ hle]
      congr 2
      rw [Nat.dvd_add_right (Dvd.intro_left i rfl)]
      simp only [eq_iff_iff]
      exact ⟨fun h => Nat.eq_zero_of_dvd_of_lt h hj, fun h => by simp [h]⟩
    rw [e, List.range_succ_eq_map, List.filter_cons]
    simp only [decide_true, Bool.not_true, Bool.false_eq_true, if_false]
    rw [List.filter_map, List.filter_eq_self.2]
    intro j _
    simp
  rw [hf, List.map_map]
  apply List.map_congr_left
  intro j _
  simp only [Function.comp]
  rw [hstep]
  push_cast
  congr 2
  field_simp

example : ticks 0 10 3 1 = ([0, 5, 10], [5 / 2, 15 / 2]) := by decide +kernel

example : (match fixaxis (1 / 2) [3, -1, 2] (.two [1, 4, 2] [1, 1, 1]) (.inl false) with
    | .ok r => decide (r = ([3, 4, 2], some [⟨3, 1, 1, false⟩, ⟨4, 2, 0, true⟩, ⟨2, 1, 1, true⟩]))
    | .error _ => false) = true := by decide +kernel

end Verif.PlotHelpers
