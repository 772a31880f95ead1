import Mathlib.Data.List.Basic
import Mathlib.Tactic.Linarith

/-!
# Pickle files (astropysics/utils/io.py 42-136)

`fpickle` and `funpickle` on files given by name.  A file is the sequence of its complete pickles,
possibly ended by the beginning of one whose `dump` raised.  Pickle's own encoding is not modelled:
what was dumped completely is loaded back equal.
-/

namespace Verif.Pickle

variable {α : Type}

/-- What a file holds, in order: pickled objects, or the torn rest of a dump that raised.  Loading a
torn pickle raises EOFError when it is cut short (`true`), or another error. -/
inductive Item (α : Type) where
  | obj (a : α)
  | torn (eof : Bool)
deriving DecidableEq, Repr

inductive Err where
  | eofError | unpicklingError | ioError | picklingError
deriving DecidableEq, Repr

/-- A file system: `none` is no such file. -/
abbrev Files (α : Type) := String → Option (List (Item α))

/-- io.py 94-136.  `dump` of an unpicklable object raises after the file was opened (and, unless
appending, emptied); `torn` says what it left in the file. -/
def fpickle (fs : Files α) (fn : String) (obj : Except (List (Item α)) α) (append : Bool) :
    Files α × Option Err :=
  let old := if append then (fs fn).getD [] else []
  match obj with
  | .ok a => (fun n => if n = fn then some (old ++ [.obj a]) else fs n, none)
  | .error rest => (fun n => if n = fn then some (old ++ rest) else fs n, some .picklingError)

/-- One `pickle.load`: the object and the rest of the file. -/
def load : List (Item α) → Except Err (α × List (Item α))
  | [] => .error .eofError
  | .obj a :: l => .ok (a, l)
  | .torn true :: _ => .error .eofError
  | .torn false :: _ => .error .unpicklingError

/-- io.py 74-78: `number` loads. -/
def loadN : Nat → List (Item α) → Except Err (List α)
  | 0, _ => .ok []
  | n + 1, l =>
    match load l with
    | .error e => .error e
    | .ok (a, l') =>
      match loadN n l' with
      | .error e => .error e
      | .ok as => .ok (a :: as)

/-- io.py 80-86: until EOFError. -/
def loadAll : List (Item α) → Except Err (List α)
  | [] => .ok []
  | .torn true :: _ => .ok []
  | .torn false :: _ => .error .unpicklingError
  | .obj a :: l =>
    match loadAll l with
    | .error e => .error e
    | .ok as => .ok (a :: as)

/-- What `funpickle` returns: one object or a list. -/
inductive Res (α : Type) where
  | one (a : α)
  | many (l : List α)
deriving DecidableEq, Repr

/-- io.py 42-92. -/
def funpickle (fs : Files α) (fn : String) (number : Int) : Except Err (Res α) :=
  match fs fn with
  | none => .error .ioError
  | some l =>
    if number > 0 then (loadN number.toNat l).map .many
    else if number < 0 then (loadAll l).map .many
    else
      match load l with
      | .error e => .error e
      | .ok (a, _) => .ok (.one a)

/-! ## Specification: a history of writes -/

/-- A write to some file: the object, or the failure of pickling it. -/
structure Write (α : Type) where
  fn : String
  obj : Except (List (Item α)) α
  append : Bool

def run (fs : Files α) : List (Write α) → Files α
  | [] => fs
  | w :: ws => run (fpickle fs w.fn w.obj w.append).1 ws

/-- The objects a file should contain: those appended since it was last overwritten. -/
def expected (fn : String) : List (Write α) → List α → List α
  | [], acc => acc
  | ⟨f, .ok a, app⟩ :: ws, acc =>
    if f = fn then expected fn ws (if app then acc ++ [a] else [a]) else expected fn ws acc
  | ⟨_, .error _, _⟩ :: ws, acc => expected fn ws acc

theorem run_content (fn : String) (ws : List (Write α)) (hok : ∀ w ∈ ws, w.fn = fn → w.obj.isOk = true) :
    ∀ (fs : Files α) (acc : List α), (fs fn).getD [] = acc.map .obj →
      ((run fs ws) fn).getD [] = (expected fn ws acc).map .obj := by
  induction ws with
  | nil => intro fs acc h; exact h
  | cons w ws ih =>
    intro fs acc h
    have ih' := ih (fun w' hw' => hok w' (by simp [hw']))
    obtain ⟨f, o, app⟩ := w
    have hw := hok ⟨f, o, app⟩ (by simp)
    cases o with
    | error e =>
      simp only [run, expected]
      apply ih'
      by_cases hf : f = fn
      · have := hw hf; cases this
      · simp only [fpickle]; rw [if_neg (fun h => hf h.symm)]; exact h
    | ok a =>
      simp only [run, expected]
      by_cases hf : f = fn
      · subst hf
        rw [if_pos rfl]
        apply ih'
        simp only [fpickle, if_true, Option.getD_some]
        cases app
        · simp
        · simp [h]
      · rw [if_neg hf]
        apply ih'
        simp only [fpickle]; rw [if_neg (fun h => hf h.symm)]; exact h

theorem run_exists (fn : String) (ws : List (Write α)) :
    ∀ fs : Files α, fs fn ≠ none → (run fs ws) fn ≠ none := by
  induction ws with
  | nil => intro fs h; exact h
  | cons w ws ih =>
    intro fs h
    obtain ⟨f, o, app⟩ := w
    apply ih
    cases o <;> simp only [fpickle] <;> split_ifs <;> first | exact h | simp

theorem loadAll_objs (l : List α) : loadAll (l.map .obj) = .ok l := by
  induction l with
  | nil => rfl
  | cons a l ih => simp [loadAll, ih]

theorem loadN_objs (l : List α) (r : List (Item α)) (n : Nat) (h : n ≤ l.length) :
    loadN n (l.map .obj ++ r) = .ok (l.take n) := by
  induction n generalizing l with
  | zero => rfl
  | succ n ih =>
    cases l with
    | nil => simp at h
    | cons a l =>
      simp only [List.map_cons, List.cons_append, loadN, load]
      rw [ih l (by simpa using h)]
      rfl

theorem loadN_short (l : List α) (n : Nat) (h : l.length < n) :
    loadN n (l.map .obj) = .error .eofError := by
  induction n generalizing l with
  | zero => omega
  | succ n ih =>
    cases l with
    | nil => rfl
    | cons a l =>
      simp only [List.map_cons, loadN, load]
      rw [ih l (by simpa using h)]

/-- C60: after any history of successful `fpickle` calls on this file (and anything on others), a
negative number reads all objects appended since the last overwrite, in order. -/
theorem roundtrip_all (fs : Files α) (fn : String) (ws : List (Write α)) (acc : List α)
    (h0 : fs fn = some (acc.map .obj)) (hok : ∀ w ∈ ws, w.fn = fn → w.obj.isOk = true)
    (number : Int) (hn : number < 0) :
    funpickle (run fs ws) fn number = .ok (.many (expected fn ws acc)) := by
  have h := run_content fn ws hok fs acc (by rw [h0]; rfl)
  unfold funpickle
  cases hl : (run fs ws) fn with
  | none => exact absurd hl (run_exists fn ws fs (by simp [h0]))
  | some l =>
    rw [hl] at h
    simp only [Option.getD_some] at h
    subst h
    simp only
    rw [if_neg (by omega), if_pos hn, loadAll_objs]
    rfl

/-- C60: a positive number `n` reads the first `n` of them, or raises EOFError if there are fewer. -/
theorem roundtrip_n (fs : Files α) (fn : String) (ws : List (Write α)) (acc : List α)
    (h0 : fs fn = some (acc.map .obj)) (hok : ∀ w ∈ ws, w.fn = fn → w.obj.isOk = true)
    (number : Int) (hn : 0 < number) :
    funpickle (run fs ws) fn number =
      if number ≤ (expected fn ws acc).length then .ok (.many ((expected fn ws acc).take number.toNat))
      else .error .eofError := by
  have h := run_content fn ws hok fs acc (by rw [h0]; rfl)
  unfold funpickle
  cases hl : (run fs ws) fn with
  | none => exact absurd hl (run_exists fn ws fs (by simp [h0]))
  | some l =>
    rw [hl] at h
    simp only [Option.getD_some] at h
    subst h
    simp only
    rw [if_pos hn]
    split_ifs with hle
    · have := loadN_objs (expected fn ws acc) [] number.toNat (by omega)
      rw [List.append_nil] at this
      rw [this]; rfl
    · rw [loadN_short _ _ (by omega)]; rfl

/-- C60: number 0 reads the first of them. -/
theorem roundtrip_first (fs : Files α) (fn : String) (ws : List (Write α)) (acc : List α)
    (h0 : fs fn = some (acc.map .obj)) (hok : ∀ w ∈ ws, w.fn = fn → w.obj.isOk = true)
    (a : α) (l : List α) (he : expected fn ws acc = a :: l) :
    funpickle (run fs ws) fn 0 = .ok (.one a) := by
  have h := run_content fn ws hok fs acc (by rw [h0]; rfl)
  rw [he] at h
  unfold funpickle
  cases hl : (run fs ws) fn with
  | none => rw [hl] at h; simp at h
  | some l' =>
    rw [hl] at h
    simp only [Option.getD_some] at h
    subst h
    simp [load]

/-- An append that fails loses nothing: the objects before it are still read. -/
theorem failed_append_keeps (fs : Files α) (fn : String) (acc : List α) (rest : List (Item α))
    (h0 : fs fn = some (acc.map .obj)) (n : Nat) (hn : n ≤ acc.length) (hp : 0 < n) :
    funpickle (fpickle fs fn (.error rest) true).1 fn n = .ok (.many (acc.take n)) := by
  unfold funpickle fpickle
  simp only [h0, if_true, Option.getD_some]
  rw [if_pos (by omega), Int.toNat_natCast, loadN_objs acc rest n hn]
  rfl

/-- ... but an overwrite that fails does: the old objects are gone (refutes that a failing write
leaves the file alone). -/
theorem failed_overwrite_loses (fs : Files α) (fn : String) (rest : List (Item α)) :
    (fpickle fs fn (.error rest) false).1 fn = some rest := by
  simp [fpickle]

/-- ... and whatever is appended after a torn pickle cannot be read. -/
theorem append_after_torn_unreadable (fs : Files α) (fn : String) (acc : List α) (a : α)
    (h0 : fs fn = some (acc.map .obj)) :
    funpickle (run fs [⟨fn, .error [.torn true], true⟩, ⟨fn, .ok a, true⟩]) fn (-1) =
      .ok (.many acc) := by
  have hla : ∀ (l : List α) (x : List (Item α)),
      loadAll (l.map Item.obj ++ (.torn true :: x)) = .ok l := by
    intro l x
    induction l with
    | nil => rfl
    | cons b l ih => simp only [List.map_cons, List.cons_append, loadAll]; rw [ih]
  unfold funpickle
  simp only [run, fpickle, if_true, h0, Option.getD_some, List.append_assoc, List.cons_append,
    List.nil_append]
  rw [if_neg (by omega), if_pos (by omega), hla]
  rfl

/-- The documentation promises a single object for any number below 1; a negative one returns a
list. -/
theorem negative_number_is_list :
    funpickle (fun _ => some [Item.obj 1, .obj 2]) "f" (-1) = .ok (.many [1, 2]) := by decide

/-- Non-vacuity: overwrite, append twice, with another file in between. -/
example : funpickle (run (fun _ => some []) [⟨"f", .ok 1, true⟩, ⟨"f", .ok 2, false⟩,
    ⟨"g", .ok 9, false⟩, ⟨"f", .ok 3, true⟩]) "f" (-1) = .ok (.many [2, 3]) := by decide

end Verif.Pickle
