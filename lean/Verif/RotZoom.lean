import Verif.Animate
import Mathlib.Data.Nat.Log
import Mathlib.Data.List.Induction
import Mathlib.Data.Rat.Floor
import Mathlib.Logic.Function.Iterate
import Mathlib.Tactic.Linarith

/-!
# Rotating and zooming animations (astropysics/plotting.py 1330-1454) (C219, C220)

`mlab_animate_rotzoom`: the preparation of the arguments, the file names, and the
generator that moves the camera, one `next()` at a time.  The Mayavi scene is a
parameter: its camera operations are arbitrary functions on an arbitrary state.
-/

namespace Verif.RotZoom

open Verif.Animate (pad Text)

/-- An argument `azs`, `els`, `rolls` or `dists`: a sequence, or one value or `None` for every frame. -/
inductive Arg
  | seq (l : List (Option ℚ))
  | one (v : Option ℚ)

inductive Err
  | value
  | overflow
  | zeroDivision
  deriving DecidableEq

/-- What one frame is given: azimuth, elevation, roll, distance. -/
abbrev Move := Option ℚ × Option ℚ × Option ℚ × Option ℚ

/-- `len(v)`, `None` where there is none (plotting.py:1380-1385). -/
def len : Arg → Option ℕ
  | .seq l => some l.length
  | .one _ => none

/-- Python 2's `max` with `None` below every number (plotting.py:1386). -/
def omax : Option ℕ → Option ℕ → Option ℕ
  | none, b => b
  | a, none => a
  | some a, some b => some (max a b)

/-- `[v]*n` for a single value (plotting.py:1392-1399). -/
def spread (n : ℕ) : Arg → List (Option ℚ)
  | .seq l => l
  | .one v => List.replicate n v

/-- The moves, frame by frame (plotting.py:1380-1399 and the `zip` of 1423). -/
def prepare (a e r d : Arg) : Except Err (List Move) :=
  match omax (len a) (omax (len e) (omax (len r) (len d))) with
  | none => .error .value
  | some n =>
    if [len a, len e, len r, len d].any (fun m => m.any fun k => decide (k ≠ n)) then .error .value
    else .ok ((spread n a).zip ((spread n e).zip ((spread n r).zip (spread n d))))

/-- The file name of frame `i` of `n` (plotting.py:1401-1405 and 1425): root, underscore, the number with `ceil(log10(n))` digits
(taken exactly), extension, `.png` if there is none.  The given name is its `splitext`. -/
def frame (root ext : Text) (n i : ℕ) : Text :=
  root ++ ['_'] ++ pad (Nat.clog 10 n) i ++ (if ext = [] then ['.', 'p', 'n', 'g'] else ext)

/-- Whether the file names can be made at all: `int(ceil(log10(0)))` overflows (plotting.py:1405). -/
def named (fn : Option (Text × Text)) (n : ℕ) : Except Err Unit :=
  if fn.isSome && decide (n = 0) then .error .overflow else .ok ()

/-- `delay` in milliseconds (plotting.py:1407-1410); Python 2's `round` goes away from zero at a half. -/
def delay : Option ℚ → Except Err ℤ
  | none => .ok 10
  | some fps => if fps = 0 then .error .zeroDivision else
    .ok (if 0 ≤ 1000 / fps then ⌊1000 / fps + 1/2⌋ else ⌈1000 / fps - 1/2⌉)

/-- A view: azimuth, elevation, distance, focal point. -/
structure View (F : Type) where
  az : ℚ
  el : ℚ
  dist : ℚ
  focal : F
  deriving DecidableEq

/-- The scene: the camera's operations and the `mlab` functions used. -/
structure Scene (S F : Type) where
  azimuth : ℚ → S → S
  elevation : ℚ → S → S
  rollBy : ℚ → S → S
  dolly : ℚ → S → S
  refresh : S → S
  view : S → View F
  roll : S → ℚ
  setView : View F → S → S
  setRoll : ℚ → S → S

variable {S F : Type}

/-- Apply an operation to a value that may be missing. -/
def opt (f : ℚ → S → S) (v : Option ℚ) (s : S) : S := match v with
  | none => s
  | some x => f x s

/-- A relative move (plotting.py:1429-1440).  A distance 0 (a division by zero in the code) is not modelled. -/
def turn (sc : Scene S F) (m : Move) (s : S) : S :=
  sc.refresh (opt (fun d => sc.dolly (1 / d)) m.2.2.2 (opt sc.rollBy m.2.2.1 (opt sc.elevation m.2.1 (opt sc.azimuth m.1 s))))

/-- An absolute move (plotting.py:1441-1449); `mlab.roll(None)` changes nothing. -/
def place (sc : Scene S F) (old : View F) (m : Move) (s : S) : S :=
  opt sc.setRoll m.2.2.1 (sc.setView ⟨m.1.getD old.az, m.2.1.getD old.el, m.2.2.2.getD old.dist, old.focal⟩ s)

/-- The generator between two `next()`s. -/
structure Gen (S F : Type) where
  started : Bool
  finished : Bool
  i : ℕ
  rest : List Move
  s : S
  old : View F
  init : View F × ℚ
  saved : List (Text × S)

/-- Before the first `next()`. -/
def fresh (sc : Scene S F) (ms : List Move) (s : S) : Gen S F :=
  ⟨false, false, 0, ms, s, sc.view s, (sc.view s, sc.roll s), []⟩

/-- The body once started: a frame, or the end (plotting.py:1423-1454).  `name` is none when nothing is to be saved. -/
def body (sc : Scene S F) (relative : Bool) (name : Option (ℕ → Text)) (g : Gen S F) : Gen S F :=
  match g.rest with
  | [] => { g with finished := true, s := sc.setRoll g.init.2 (sc.setView g.init.1 g.s) }
  | m :: l =>
    let saved := match name with
      | none => g.saved
      | some f => g.saved ++ [(f g.i, g.s)]
    if relative then { g with i := g.i + 1, rest := l, s := turn sc m g.s, saved := saved }
    else
      let s' := place sc g.old m g.s
      { g with i := g.i + 1, rest := l, s := s', old := sc.view s', saved := saved }

/-- One `next()` (plotting.py:1416-1454): the first one reads the view and roll to come back to. -/
def next (sc : Scene S F) (relative : Bool) (name : Option (ℕ → Text)) (g : Gen S F) : Gen S F :=
  if g.finished then g
  else if g.started then body sc relative name g
  else body sc relative name { g with started := true, old := sc.view g.s, init := (sc.view g.s, sc.roll g.s) }

/-! ## Specification -/

/-- One move from the current state, without any memory of earlier ones. -/
def advance (sc : Scene S F) (relative : Bool) (s : S) (m : Move) : S :=
  if relative then turn sc m s else place sc (sc.view s) m s

/-- The scene after the first `k` moves. -/
def after (sc : Scene S F) (relative : Bool) (ms : List Move) (s : S) (k : ℕ) : S :=
  (ms.take k).foldl (advance sc relative) s

/-- What is read is what was set; view and roll do not disturb each other. -/
structure Lawful (sc : Scene S F) : Prop where
  view_setView : ∀ v s, sc.view (sc.setView v s) = v
  view_setRoll : ∀ r s, sc.view (sc.setRoll r s) = sc.view s
  roll_setRoll : ∀ r s, sc.roll (sc.setRoll r s) = r
  roll_setView : ∀ v s, sc.roll (sc.setView v s) = sc.roll s

theorem after_succ (sc : Scene S F) (relative : Bool) (ms : List Move) (s : S) (k : ℕ) (h : k < ms.length) :
    after sc relative ms s (k + 1) = advance sc relative (after sc relative ms s k) ms[k] := by
  unfold after
  rw [List.take_add_one, List.getElem?_eq_getElem h, List.foldl_append]
  rfl

/-- The invariant of a running generator. -/
theorem running (sc : Scene S F) (relative : Bool) (name : Option (ℕ → Text)) (ms : List Move) (s : S) (k : ℕ) (hk : k < ms.length) :
    let g := (next sc relative name)^[k + 1] (fresh sc ms s)
    g.started = true ∧ g.finished = false ∧ g.i = k + 1 ∧ g.rest = ms.drop (k + 1) ∧
    g.s = after sc relative ms s (k + 1) ∧ (relative = false → g.old = sc.view g.s) ∧ g.init = (sc.view s, sc.roll s) ∧
    g.saved = (match name with
      | none => []
      | some f => (List.range (k + 1)).map fun j => (f j, after sc relative ms s j)) := by
  induction k with
  | zero =>
    obtain ⟨m, l, rfl⟩ := List.exists_cons_of_length_pos (Nat.zero_lt_of_lt hk)
    cases relative <;> cases name <;> simp [next, fresh, body, after, advance]
  | succ k ih =>
    obtain ⟨h1, h2, h3, h4, h5, h6, h7, h8⟩ := ih (by omega)
    rw [Function.iterate_succ_apply']
    generalize (next sc relative name)^[k + 1] (fresh sc ms s) = g at *
    have hr : g.rest = ms[k + 1] :: ms.drop (k + 1 + 1) := by rw [h4]; exact List.drop_eq_getElem_cons hk
    have ha := after_succ sc relative ms s (k + 1) hk
    simp only [next, h1, h2, body, hr, h3, h7, h8]
    cases relative
    · have h6' := h6 rfl
      cases name
      · simp [ha, h5, h6', advance]
      · simp [ha, h5, h6', advance, List.range_succ]
    · cases name
      · simp [ha, h5, advance]
      · simp [ha, h5, advance, List.range_succ]

theorem finished_next (sc : Scene S F) (relative : Bool) (name : Option (ℕ → Text)) (g : Gen S F) (h : g.finished = true) (j : ℕ) :
    (next sc relative name)^[j] g = g := by
  induction j with
  | zero => rfl
  | succ j ih => rw [Function.iterate_succ_apply, show next sc relative name g = g by simp [next, h], ih]

theorem ended (sc : Scene S F) (relative : Bool) (name : Option (ℕ → Text)) (ms : List Move) (s : S) :
    let g := (next sc relative name)^[ms.length + 1] (fresh sc ms s)
    g.finished = true ∧ g.s = sc.setRoll (sc.roll s) (sc.setView (sc.view s) (after sc relative ms s ms.length)) ∧
    g.saved = (match name with
      | none => []
      | some f => (List.range ms.length).map fun j => (f j, after sc relative ms s j)) := by
  rcases Nat.eq_zero_or_pos ms.length with h | h
  · have : ms = [] := List.length_eq_zero_iff.1 h
    subst this
    cases name <;> simp [next, fresh, body, after]
  · obtain ⟨k, hk⟩ : ∃ k, ms.length = k + 1 := ⟨ms.length - 1, by omega⟩
    obtain ⟨h1, h2, h3, h4, h5, h6, h7, h8⟩ := running sc relative name ms s k (by omega)
    rw [hk, Function.iterate_succ_apply']
    generalize (next sc relative name)^[k + 1] (fresh sc ms s) = g at *
    have hr : g.rest = [] := by rw [h4]; exact List.drop_eq_nil_of_le (by omega)
    simp [next, h1, h2, body, hr, h5, h7, h8]

/-! ## Theorems -/

/-- **C219.** However many steps `k` of the animation have run, the scene is the initial one after `k` moves, and exactly the frames `0 .. k-1` have been saved:
frame `j` shows the scene *before* move `j`. -/
theorem frames_saved (sc : Scene S F) (relative : Bool) (f : ℕ → Text) (ms : List Move) (s : S) (k : ℕ) (hk : k ≤ ms.length) :
    ((next sc relative (some f))^[k] (fresh sc ms s)).s = after sc relative ms s k ∧
    ((next sc relative (some f))^[k] (fresh sc ms s)).saved = (List.range k).map (fun j => (f j, after sc relative ms s j)) := by
  cases k with
  | zero => exact ⟨rfl, rfl⟩
  | succ k =>
    obtain ⟨_, _, _, _, h5, _, _, h8⟩ := running sc relative (some f) ms s k (by omega)
    exact ⟨h5, h8⟩

/-- **C219.** Without a file name the camera moves in the same way and nothing is saved, ever. -/
theorem nothing_saved (sc : Scene S F) (relative : Bool) (ms : List Move) (s : S) (k : ℕ) :
    ((next sc relative none)^[k] (fresh sc ms s)).saved = [] ∧
    (k ≤ ms.length → ((next sc relative none)^[k] (fresh sc ms s)).s = after sc relative ms s k) := by
  rcases Nat.lt_or_ge ms.length k with h | h
  · obtain ⟨j, rfl⟩ : ∃ j, k = j + (ms.length + 1) := ⟨k - (ms.length + 1), by omega⟩
    obtain ⟨h1, _, h3⟩ := ended sc relative none ms s
    rw [Function.iterate_add_apply, finished_next sc relative none _ h1]
    exact ⟨h3, fun h' => by omega⟩
  · cases k with
    | zero => exact ⟨rfl, fun _ => rfl⟩
    | succ k =>
      obtain ⟨_, _, _, _, h5, _, _, h8⟩ := running sc relative none ms s k (by omega)
      exact ⟨h8, fun _ => h5⟩

/-- **C219.** Once the animation has run to its end the view and roll are the initial ones, exactly `n` frames were saved (the scene after the last move is not
among what is saved), and nothing changes any more. -/
theorem restored (sc : Scene S F) (hs : Lawful sc) (relative : Bool) (f : ℕ → Text) (ms : List Move) (s : S) (k : ℕ) (hk : ms.length < k) :
    sc.view ((next sc relative (some f))^[k] (fresh sc ms s)).s = sc.view s ∧
    sc.roll ((next sc relative (some f))^[k] (fresh sc ms s)).s = sc.roll s ∧
    ((next sc relative (some f))^[k] (fresh sc ms s)).saved = (List.range ms.length).map (fun j => (f j, after sc relative ms s j)) := by
  obtain ⟨j, rfl⟩ : ∃ j, k = j + (ms.length + 1) := ⟨k - (ms.length + 1), by omega⟩
  obtain ⟨h1, h2, h3⟩ := ended sc relative (some f) ms s
  rw [Function.iterate_add_apply, finished_next sc relative (some f) _ h1, h2, h3, hs.view_setRoll, hs.view_setView, hs.roll_setRoll]
  exact ⟨rfl, rfl, rfl⟩

/-- **C219.** Relative moves: azimuth, elevation, roll, then zoom by the reciprocal distance; a missing one is not applied. -/
theorem relative_move (sc : Scene S F) (s : S) (a e r d : ℚ) (b c : Option ℚ) :
    advance sc true s (some a, some e, some r, some d) =
      sc.refresh (sc.dolly (1 / d) (sc.rollBy r (sc.elevation e (sc.azimuth a s)))) ∧
    advance sc true s (none, none, none, none) = sc.refresh s ∧
    advance sc true s (none, b, none, c) =
      sc.refresh (opt (fun d => sc.dolly (1 / d)) c (opt sc.elevation b s)) ∧
    advance sc true s (b, none, c, none) = sc.refresh (opt sc.rollBy c (opt sc.azimuth b s)) := ⟨rfl, rfl, rfl, rfl⟩

/-- The last value given among some, or the one before. -/
def lastGiven (d : ℚ) (l : List (Option ℚ)) : ℚ := (l.filterMap id).getLast?.getD d

theorem lastGiven_snoc (d : ℚ) (l : List (Option ℚ)) (v : Option ℚ) : lastGiven d (l ++ [v]) = v.getD (lastGiven d l) := by
  cases v <;> simp [lastGiven, List.filterMap_append]

/-- **C219.** Absolute moves: after any number of them the azimuth, elevation, distance and roll are each the last one given so far (the initial one if none was),
and the focal point is the initial one. -/
theorem absolute_moves (sc : Scene S F) (hs : Lawful sc) (ms : List Move) (s : S) (k : ℕ) :
    sc.view (after sc false ms s k) =
      ⟨lastGiven (sc.view s).az ((ms.take k).map (·.1)), lastGiven (sc.view s).el ((ms.take k).map (·.2.1)),
       lastGiven (sc.view s).dist ((ms.take k).map (·.2.2.2)), (sc.view s).focal⟩ ∧
    sc.roll (after sc false ms s k) = lastGiven (sc.roll s) ((ms.take k).map (·.2.2.1)) := by
  unfold after
  generalize ms.take k = l
  induction l using List.reverseRecOn with
  | nil => exact ⟨rfl, rfl⟩
  | append_singleton l m ih =>
    obtain ⟨h1, h2⟩ := ih
    rw [List.foldl_append]
    simp only [List.foldl_cons, List.foldl_nil, List.map_append, List.map_cons, List.map_nil, lastGiven_snoc]
    generalize List.foldl (advance sc false) s l = t at *
    obtain ⟨a, e, r, d⟩ := m
    cases r with
    | none => simp [advance, place, opt, hs.view_setView, hs.roll_setView, h1, h2]
    | some r => simp [advance, place, opt, hs.view_setView, hs.view_setRoll, hs.roll_setRoll, h1]

/-! ## Arguments and names -/

theorem zip_spread (n : ℕ) (a e r d : Arg) (h : ∀ x ∈ [a, e, r, d], ∀ l, x = .seq l → l.length = n) (i : ℕ) (hi : i < n) :
    ((spread n a).zip ((spread n e).zip ((spread n r).zip (spread n d))))[i]? =
      some ((spread n a)[i]?.getD none, (spread n e)[i]?.getD none, (spread n r)[i]?.getD none, (spread n d)[i]?.getD none) := by
  have hl : ∀ x ∈ [a, e, r, d], i < (spread n x).length := by
    intro x hx
    cases x with
    | seq l => simp only [spread]; rw [h _ hx l rfl]; exact hi
    | one v => simpa [spread] using hi
  have ha := hl a (by simp); have he := hl e (by simp); have hr := hl r (by simp); have hd := hl d (by simp)
  simp [List.getElem?_zip_eq_some, List.getElem?_eq_getElem, ha, he, hr, hd]

theorem omax_spec (a e r d : Arg) :
    (omax (len a) (omax (len e) (omax (len r) (len d))) = none ↔ ∀ x ∈ [a, e, r, d], len x = none) ∧
    ∀ n, (∀ x ∈ [a, e, r, d], ∀ k, len x = some k → k = n) → (∃ x ∈ [a, e, r, d], len x = some n) →
      omax (len a) (omax (len e) (omax (len r) (len d))) = some n := by
  constructor
  · cases ha : len a <;> cases he : len e <;> cases hr : len r <;> cases hd : len d <;> simp [omax, ha, he, hr, hd]
  · intro n h
    simp only [List.mem_cons, List.not_mem_nil, or_false, forall_eq_or_imp, forall_eq, exists_eq_or_imp, exists_eq_left] at h ⊢
    cases ha : len a <;> cases he : len e <;> cases hr : len r <;> cases hd : len d <;> simp_all [omax]

/-- **C220.** The arguments are accepted exactly when at least one is a sequence and all sequences have the same length, `n` say; anything else is a `ValueError`. -/
theorem accepted (a e r d : Arg) :
    ((∃ ms, prepare a e r d = .ok ms) ↔
      ∃ n, (∃ x ∈ [a, e, r, d], ∃ l, x = Arg.seq l ∧ l.length = n) ∧ ∀ x ∈ [a, e, r, d], ∀ l, x = Arg.seq l → l.length = n) ∧
    ∀ er, prepare a e r d = .error er → er = .value := by
  have hlen : ∀ (x : Arg) (k : ℕ), len x = some k ↔ ∃ l, x = .seq l ∧ l.length = k := by
    intro x k; cases x <;> simp [len]
  obtain ⟨h1, h2⟩ := omax_spec a e r d
  constructor
  · constructor
    · rintro ⟨ms, h⟩
      unfold prepare at h
      cases hm : omax (len a) (omax (len e) (omax (len r) (len d))) with
      | none => rw [hm] at h; cases h
      | some n =>
        rw [hm] at h
        simp only at h
        split at h
        · cases h
        · next hn =>
          simp only [List.any_eq_true, not_exists, not_and, Option.any_eq_true, decide_eq_true_eq, not_not] at hn
          have hall : ∀ x ∈ [a, e, r, d], ∀ k, len x = some k → k = n := by
            intro x hx k hk
            exact hn (len x) (by simp only [List.mem_cons, List.not_mem_nil, or_false] at hx ⊢; rcases hx with h | h | h | h <;> simp [h]) k hk
          have hex : ∃ x ∈ [a, e, r, d], ∃ k, len x = some k := by
            by_contra hc
            push Not at hc
            have : ∀ x ∈ [a, e, r, d], len x = none := by
              intro x hx
              cases hq : len x with
              | none => rfl
              | some k => exact absurd hq (hc x hx k)
            rw [h1.2 this] at hm
            cases hm
          refine ⟨n, ?_, ?_⟩
          · obtain ⟨x, hx, k, hk⟩ := hex
            have := hall x hx k hk
            subst this
            exact ⟨x, hx, (hlen x k).1 hk⟩
          · intro x hx l hl
            exact hall x hx l.length ((hlen x _).2 ⟨l, hl, rfl⟩)
    · rintro ⟨n, ⟨x, hx, l, hl, hn⟩, hall⟩
      have hall' : ∀ x ∈ [a, e, r, d], ∀ k, len x = some k → k = n := by
        intro y hy k hk
        obtain ⟨l', hl', rfl⟩ := (hlen y k).1 hk
        exact hall y hy l' hl'
      have hm := h2 n hall' ⟨x, hx, (hlen x n).2 ⟨l, hl, hn⟩⟩
      unfold prepare
      rw [hm]
      simp only
      rw [if_neg]
      · exact ⟨_, rfl⟩
      · simp only [List.any_eq_true, not_exists, not_and, Option.any_eq_true, decide_eq_true_eq, not_not]
        intro m hmem k hk
        simp only [List.mem_cons, List.not_mem_nil, or_false] at hmem
        rcases hmem with h | h | h | h
        · exact hall' a (by simp) k (by rw [← h]; exact hk)
        · exact hall' e (by simp) k (by rw [← h]; exact hk)
        · exact hall' r (by simp) k (by rw [← h]; exact hk)
        · exact hall' d (by simp) k (by rw [← h]; exact hk)
  · intro er h
    unfold prepare at h
    split at h
    · cases h; rfl
    · split at h
      · cases h; rfl
      · cases h

/-- What an argument says for frame `i`: its element, or its only value. -/
def value : Arg → ℕ → Option ℚ
  | .seq l, i => l[i]?.getD none
  | .one v, _ => v

/-- **C220.** Accepted arguments give as many moves as the sequences are long, and move `i` holds what each argument says for frame `i`. -/
theorem moves (a e r d : Arg) (ms : List Move) (h : prepare a e r d = .ok ms) :
    (∀ x ∈ [a, e, r, d], ∀ l, x = Arg.seq l → l.length = ms.length) ∧
    ∀ i < ms.length, ms[i]? = some (value a i, value e i, value r i, value d i) := by
  obtain ⟨n, ⟨x, hx, l, hl, hn⟩, hall⟩ := (accepted a e r d).1.1 ⟨ms, h⟩
  have hlen : ∀ (x : Arg) (k : ℕ), len x = some k ↔ ∃ l, x = .seq l ∧ l.length = k := by
    intro x k; cases x <;> simp [len]
  have hm := (omax_spec a e r d).2 n (by
    intro y hy k hk
    obtain ⟨l', hl', rfl⟩ := (hlen y k).1 hk
    exact hall y hy l' hl') ⟨x, hx, (hlen x n).2 ⟨l, hl, hn⟩⟩
  unfold prepare at h
  rw [hm] at h
  simp only at h
  split at h
  · cases h
  · cases h
    have hs : ∀ x ∈ [a, e, r, d], (spread n x).length = n := by
      intro x hx
      cases x with
      | seq l => exact hall _ hx l rfl
      | one v => simp [spread]
    have hlz : ((spread n a).zip ((spread n e).zip ((spread n r).zip (spread n d)))).length = n := by
      simp [hs a (by simp), hs e (by simp), hs r (by simp), hs d (by simp)]
    rw [hlz]
    refine ⟨hall, fun i hi => ?_⟩
    rw [zip_spread n a e r d hall i hi]
    have hv : ∀ x : Arg, (spread n x)[i]?.getD none = value x i := by
      intro x
      cases x with
      | seq l => rfl
      | one v => simp [spread, value, hi]
    rw [hv, hv, hv, hv]

theorem digits_fit (n i : ℕ) (h : i < n) (hn : 2 ≤ n) : (Nat.toDigits 10 i).length ≤ Nat.clog 10 n := by
  have hp : 0 < Nat.clog 10 n := Nat.clog_pos (by decide) hn
  rw [Nat.length_toDigits_le_iff (by decide) hp]
  exact lt_of_lt_of_le h (Nat.le_pow_clog (by decide) n)

/-- **C220.** The frames' file names are all different and equally long, so that none overwrites another; each is the root, an underscore, the frame number filled
up with zeros, and the extension (`.png` when there is none). -/
theorem names (root ext : Text) (n : ℕ) :
    (∀ i < n, ∀ j < n, frame root ext n i = frame root ext n j → i = j) ∧
    (∀ i < n, ∀ j < n, (frame root ext n i).length = (frame root ext n j).length) ∧
    (∀ i, ∃ z, frame root ext n i = root ++ ['_'] ++ List.replicate z '0' ++ Nat.toDigits 10 i ++
      (if ext = [] then ".png".toList else ext)) := by
  refine ⟨?_, ?_, ?_⟩
  · intro i _ j _ h
    unfold frame at h
    have h := List.append_cancel_right h
    exact Verif.Animate.pad_injective _ i j (List.append_cancel_left h)
  · intro i hi j hj
    rcases Nat.lt_or_ge n 2 with h | h
    · have : i = j := by omega
      rw [this]
    · simp only [frame, List.length_append, Verif.Animate.pad_length _ i (digits_fit n i hi h), Verif.Animate.pad_length _ j (digits_fit n j hj h)]
  · intro i
    exact ⟨Nat.clog 10 n - (Nat.toDigits 10 i).length, by simp [frame, pad]⟩

/-- **C220.** No more zeros than needed: the last of two or more frames has none in front. -/
theorem names_tight (n : ℕ) (hn : 2 ≤ n) : pad (Nat.clog 10 n) (n - 1) = Nat.toDigits 10 (n - 1) := by
  have h1 := digits_fit n (n - 1) (by omega) hn
  have h2 : Nat.clog 10 n ≤ (Nat.toDigits 10 (n - 1)).length := by
    rw [Nat.clog_le_iff_le_pow (by decide)]
    have := (Nat.length_toDigits_le_iff (b := 10) (n := n - 1) (by decide) (Nat.length_toDigits_pos)).1 le_rfl
    omega
  simp [pad, Nat.sub_eq_zero_of_le h2]

/-- **C220.** Naming fails only for no frames at all. -/
theorem named_iff (fn : Option (Text × Text)) (n : ℕ) : named fn n = .error .overflow ↔ fn ≠ none ∧ n = 0 := by
  cases fn <;> simp [named]

/-- **C220.** The delay is 10 ms without a rate, and else within half a millisecond of a second divided by the rate; a rate 0 is an error. -/
theorem delay_near : delay none = .ok 10 ∧ delay (some 0) = .error .zeroDivision ∧
    ∀ fps : ℚ, fps ≠ 0 → ∃ d : ℤ, delay (some fps) = .ok d ∧ |(d : ℚ) - 1000 / fps| ≤ 1/2 := by
  refine ⟨rfl, by simp [delay], ?_⟩
  intro fps h
  refine ⟨if 0 ≤ 1000 / fps then ⌊1000 / fps + 1/2⌋ else ⌈1000 / fps - 1/2⌉, by simp only [delay, if_neg h], ?_⟩
  split
  · have h1 := Int.floor_le (1000 / fps + 1/2)
    have h2 := Int.lt_floor_add_one (1000 / fps + 1/2)
    rw [abs_le]; constructor <;> linarith
  · have h1 := Int.le_ceil (1000 / fps - 1/2)
    have h2 := Int.ceil_lt_add_one (1000 / fps - 1/2)
    rw [abs_le]; constructor <;> linarith

/-! ## Concrete cases -/

/-- A scene that remembers its view and roll. -/
def toy : Scene (View ℕ × ℚ) ℕ where
  azimuth a s := ({ s.1 with az := s.1.az + a }, s.2)
  elevation a s := ({ s.1 with el := s.1.el + a }, s.2)
  rollBy a s := (s.1, s.2 + a)
  dolly a s := ({ s.1 with dist := s.1.dist / a }, s.2)
  refresh s := s
  view s := s.1
  roll s := s.2
  setView v s := (v, s.2)
  setRoll r s := (s.1, r)

theorem toy_lawful : Lawful toy := ⟨fun _ _ => rfl, fun _ _ => rfl, fun _ _ => rfl, fun _ _ => rfl⟩

/-- Two relative moves: after both, the two frames saved show the initial view and the one after the first move. -/
example : ((next toy true (some (frame "a".toList [] 2)))^[2]
      (fresh toy [(some 10, none, none, some 2), (some 10, none, none, some 2)] (⟨0, 0, 1, 7⟩, 0))).saved =
    [("a_0.png".toList, (⟨0, 0, 1, 7⟩, 0)), ("a_1.png".toList, (⟨10, 0, 2, 7⟩, 0))] := by decide +kernel

/-- Names of frame 9 among 10 and of frame 10 among 11. -/
example : frame "a".toList ".jpg".toList 10 9 = "a_9.jpg".toList ∧ frame "a".toList ".jpg".toList 11 9 = "a_09.jpg".toList ∧
    frame "a".toList ".jpg".toList 1 0 = "a_0.jpg".toList := by decide +kernel

example : prepare (.seq [some 1, none]) (.one (some 3)) (.one none) (.seq [some 4, some 5]) =
    .ok [(some 1, some 3, none, some 4), (none, some 3, none, some 5)] := rfl

example : prepare (.seq [some 1, none]) (.one (some 3)) (.one none) (.seq [some 4]) = .error .value := rfl

end Verif.RotZoom
