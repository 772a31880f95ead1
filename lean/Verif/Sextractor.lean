import Mathlib.Data.List.Nodup
import Mathlib.Tactic.Linarith

/-!
# SExtractor: configuration files (astropysics/phot.py 2508-2756)

The options and parameters, the files written and read, and the names of the files.  The program itself is not run.
A file is the list of its lines; texts are lists of characters.
-/

namespace Verif.Sextractor

inductive Err
  | value
deriving DecidableEq, Repr

/-- Characters at which `str.split()` splits. -/
def isSpace (c : Char) : Bool := c == ' ' || c == '\t' || c == '\n' || c == '\r'

/-- `str.split()`: the words of a text; `cur` holds the word being read. -/
def wordsAux : List Char → List Char → List (List Char)
  | [], cur => if cur = [] then [] else [cur]
  | c :: r, cur => if isSpace c then (if cur = [] then wordsAux r [] else cur :: wordsAux r []) else wordsAux r (cur ++ [c])
def words (l : List Char) : List (List Char) := wordsAux l []

/-- The part of a line that is looked at, phot.py 2623-2626: `l > -1` compares a text with a number and is always true, so without a `#` the last
character is cut off. -/
def cut (l : List Char) : List Char := if '#' ∈ l then l.takeWhile (· ≠ '#') else l.dropLast

/-- The options: a dictionary. -/
abbrev Opts := List (List Char × List Char)

def get (o : Opts) (k : List Char) : Option (List Char) := o.lookup k
def put (o : Opts) (k v : List Char) : Opts := (k, v) :: o

/-- One line of the options file, phot.py 2622-2632. -/
def readLine (o : Opts) (l : List Char) : Except Err Opts :=
  match words (cut l) with
  | k :: v :: _ => if (get o k).isSome then .ok (put o k v) else .error .value
  | _ => .ok o

/-- The whole file, phot.py 2620-2632. -/
def readFile : Opts → List (List Char) → Except Err Opts
  | o, [] => .ok o
  | o, l :: r => match readLine o l with
    | .error e => .error e
    | .ok o' => readFile o' r

/-- The lines that Python sees for a text written with `'\n'.join(lines)`: all but the last end with the newline. -/
def asLines : List (List Char) → List (List Char)
  | [] => []
  | [l] => [l]
  | l :: r => (l ++ ['\n']) :: asLines r

/-- One line of `_makeOptionStr`, phot.py 2683-2684. -/
def optLine (o : Opts) (info : List Char → List Char) (k : List Char) : List Char :=
  k ++ '\t' :: ((get o k).getD [] ++ '\t' :: ' ' :: '#' :: ' ' :: info k)

/-- `_makeOptionStr()`, phot.py 2682-2686. -/
def writeOpts (order : List (List Char)) (info : List Char → List Char) (o : Opts) : List (List Char) :=
  order.map (optLine o info)

/-- One line of the parameter file, phot.py 2642-2647: comment and blank lines are skipped. -/
def readParamLine (known : List (List Char)) (sel : List (List Char)) (l : List Char) : Except Err (List (List Char)) :=
  match words l with
  | [] => .ok sel
  | k :: _ => if k.head? = some '#' then .ok sel else if k ∈ known then .ok (k :: sel) else .error .value

def readParams (known : List (List Char)) : List (List Char) → List (List Char) → Except Err (List (List Char))
  | sel, [] => .ok sel
  | sel, l :: r => match readParamLine known sel l with
    | .error e => .error e
    | .ok s => readParams known s r

/-- `_makeParamStr()`, phot.py 2688-2691, for the parameters `order` of which those in `sel` are selected. -/
def paramLine (info : List Char → List Char) (p : List Char) : List Char := p ++ '\t' :: ' ' :: '#' :: ' ' :: info p
def writeParams (order : List (List Char)) (info : List Char → List Char) (sel : List Char → Bool) : List (List Char) :=
  (order.filter sel).map (paramLine info)

/-! ## Specification -/

/-- A word of the files: not empty, no white space, no `#`. -/
def IsWord (w : List Char) : Prop := w ≠ [] ∧ ∀ c ∈ w, isSpace c = false ∧ c ≠ '#'

/-! ## Lemmas -/

theorem wordsAux_word (w : List Char) (hw : ∀ c ∈ w, isSpace c = false) (r cur : List Char) :
    wordsAux (w ++ r) cur = wordsAux r (cur ++ w) := by
  induction w generalizing cur with
  | nil => simp
  | cons c w ih =>
    have hc : isSpace c = false := hw c List.mem_cons_self
    have e : wordsAux (c :: (w ++ r)) cur = wordsAux (w ++ r) (cur ++ [c]) := by
      rw [wordsAux, hc]; rfl
    rw [List.cons_append, e, ih (fun d hd => hw d (List.mem_cons_of_mem _ hd)), List.append_assoc]
    rfl

theorem wordsAux_space (c : Char) (hc : isSpace c = true) (r cur : List Char) :
    wordsAux (c :: r) cur = if cur = [] then wordsAux r [] else cur :: wordsAux r [] := by
  rw [wordsAux, hc]
  rfl

theorem words_two (k v r : List Char) (hk : IsWord k) (hv : IsWord v) :
    words (k ++ '\t' :: (v ++ '\t' :: r)) = k :: v :: words r := by
  unfold words
  rw [wordsAux_word k (fun c hc => (hk.2 c hc).1), wordsAux_space '\t' (by decide), List.nil_append, if_neg hk.1,
    wordsAux_word v (fun c hc => (hv.2 c hc).1), wordsAux_space '\t' (by decide), List.nil_append, if_neg hv.1]

theorem takeWhile_word (w r : List Char) (hw : ∀ c ∈ w, c ≠ '#') :
    (w ++ r).takeWhile (· ≠ '#') = w ++ r.takeWhile (· ≠ '#') := by
  induction w with
  | nil => rfl
  | cons c w ih =>
    have hc : (decide (c ≠ '#')) = true := by simpa using hw c List.mem_cons_self
    rw [List.cons_append, List.takeWhile_cons, if_pos hc, ih (fun d hd => hw d (List.mem_cons_of_mem _ hd)), List.cons_append]

theorem cut_line (k v t : List Char) (hk : IsWord k) (hv : ∀ c ∈ v, c ≠ '#') :
    cut (k ++ '\t' :: (v ++ '\t' :: ' ' :: '#' :: t)) = k ++ '\t' :: (v ++ ['\t', ' ']) := by
  unfold cut
  rw [if_pos (by simp)]
  rw [takeWhile_word k _ (fun c hc => (hk.2 c hc).2)]
  congr 1
  rw [List.takeWhile_cons, if_pos (by decide)]
  congr 1
  rw [takeWhile_word v _ hv]
  congr 1

theorem get_put (o : Opts) (k v q : List Char) : get (put o k v) q = if q = k then some v else get o q := by
  unfold get put
  rw [List.lookup_cons]
  by_cases h : q = k
  · simp [h]
  · have : (q == k) = false := by simpa using h
    rw [this, if_neg h]

/-- A line that was written, with or without the newline, sets the option to its value. -/
theorem readLine_written (o0 o : Opts) (info : List Char → List Char) (k v t : List Char) (hk : IsWord k) (hv : IsWord v)
    (hval : get o k = some v) (h0 : (get o0 k).isSome) :
    readLine o0 (optLine o info k ++ t) = .ok (put o0 k v) := by
  have e : optLine o info k ++ t = k ++ '\t' :: (v ++ '\t' :: ' ' :: '#' :: (' ' :: (info k ++ t))) := by
    simp [optLine, hval]
  unfold readLine
  rw [e, cut_line k v _ hk (fun c hc => (hv.2 c hc).2)]
  have := words_two k v [' '] hk hv
  rw [show (v ++ ['\t', ' ']) = v ++ '\t' :: [' '] by rfl, this]
  simp [h0]

theorem readFile_cons (o o' : Opts) (l : List Char) (r : List (List Char)) (h : readLine o l = .ok o') :
    readFile o (l :: r) = readFile o' r := by
  rw [readFile, h]

theorem readParams_cons (known sel s : List (List Char)) (l : List Char) (r : List (List Char)) (h : readParamLine known sel l = .ok s) :
    readParams known sel (l :: r) = readParams known s r := by
  rw [readParams, h]

theorem readFile_written (o : Opts) (info : List Char → List Char) : ∀ (order : List (List Char)) (o0 : Opts),
    (∀ k ∈ order, IsWord k ∧ ∃ v, get o k = some v ∧ IsWord v) → (∀ k ∈ order, (get o0 k).isSome) →
    ∃ o1, readFile o0 (asLines (writeOpts order info o)) = .ok o1 ∧
      ∀ q, get o1 q = if q ∈ order then get o q else get o0 q
  | [], o0, _, _ => ⟨o0, rfl, fun q => by simp⟩
  | k :: order, o0, h, h0 => by
    obtain ⟨hk, v, hval, hv⟩ := h k List.mem_cons_self
    have hsome : ∀ q ∈ order, (get (put o0 k v) q).isSome := by
      intro q hq
      rw [get_put]
      split
      · rfl
      · exact h0 q (List.mem_cons_of_mem _ hq)
    obtain ⟨o1, h1, h2⟩ := readFile_written o info order (put o0 k v) (fun q hq => h q (List.mem_cons_of_mem _ hq)) hsome
    refine ⟨o1, ?_, ?_⟩
    · cases order with
      | nil =>
        have : readLine o0 (optLine o info k) = .ok (put o0 k v) := by
          have := readLine_written o0 o info k v [] hk hv hval (h0 k List.mem_cons_self)
          simpa using this
        exact (readFile_cons o0 _ _ [] this).trans h1
      | cons q r =>
        have : readLine o0 (optLine o info k ++ ['\n']) = .ok (put o0 k v) :=
          readLine_written o0 o info k v ['\n'] hk hv hval (h0 k List.mem_cons_self)
        exact (readFile_cons o0 _ _ (asLines (writeOpts (q :: r) info o)) this).trans h1
    · intro q
      rw [h2, get_put]
      by_cases hq : q = k
      · subst hq
        by_cases hqo : q ∈ order
        · simp [hqo]
        · simp [hqo, hval]
      · simp [hq]

/-! ## Theorems (C123) -/

/-- **C123.** If all options have values of one word, the options file that is written is read back by a new object with exactly the same options, whatever the
defaults of the program and the comments are. -/
theorem options_roundtrip (order : List (List Char)) (info : List Char → List Char) (o defaults : Opts)
    (hwords : ∀ k ∈ order, IsWord k ∧ ∃ v, get o k = some v ∧ IsWord v) (hdef : ∀ k, (get defaults k).isSome ↔ k ∈ order) :
    ∃ o1, readFile defaults (asLines (writeOpts order info o)) = .ok o1 ∧ ∀ k ∈ order, get o1 k = get o k := by
  obtain ⟨o1, h1, h2⟩ := readFile_written o info order defaults hwords (fun k hk => (hdef k).2 hk)
  exact ⟨o1, h1, fun k hk => by rw [h2, if_pos hk]⟩

example : IsWord "DETECT_THRESH".toList ∧ IsWord "1.5".toList := by
  constructor <;> exact ⟨by decide, by decide⟩

theorem unknown_line (o : Opts) (k v r : List Char) (hk : IsWord k) (hv : IsWord v) (h : get o k = none) :
    readLine o (k ++ '\t' :: (v ++ '\t' :: ' ' :: '#' :: r)) = .error .value := by
  unfold readLine
  rw [cut_line k v _ hk (fun c hc => (hv.2 c hc).2), show (v ++ ['\t', ' ']) = v ++ '\t' :: [' '] by rfl, words_two k v [' '] hk hv]
  simp [h]

theorem get_some_mono (o o' : Opts) (l q : List Char) (h : readLine o l = .ok o') : (get o' q).isSome ↔ (get o q).isSome := by
  unfold readLine at h
  split at h
  · split at h
    · next hs =>
      cases h
      rw [get_put]
      split
      · next e => rw [e]; simp [hs]
      · rfl
    · cases h
  · cases h; rfl

/-- An option whose name the program does not have is refused wherever it stands in a file: reading fails. -/
theorem unknown_refused (k v r : List Char) (post : List (List Char)) (hk : IsWord k) (hv : IsWord v) :
    ∀ (pre : List (List Char)) (o : Opts), get o k = none →
      readFile o (pre ++ (k ++ '\t' :: (v ++ '\t' :: ' ' :: '#' :: r)) :: post) = .error .value
  | [], o, h => by
    rw [List.nil_append, readFile, unknown_line o k v r hk hv h]
  | l :: pre, o, h => by
    rw [List.cons_append, readFile]
    cases hl : readLine o l with
    | error e => cases e; rfl
    | ok o' =>
      have h' : get o' k = none := by
        have := get_some_mono o o' l k hl
        rw [h] at this
        cases hg : get o' k with
        | none => rfl
        | some x => rw [hg] at this; simp at this
      exact unknown_refused k v r post hk hv pre o' h'

/-- **C123, limit.** A value of two words loses the second one, for all words and comments. -/
theorem two_words_lost (o : Opts) (k v w r : List Char) (hk : IsWord k) (hv : IsWord v) (hw : IsWord w) (h : (get o k).isSome) :
    readLine o (k ++ '\t' :: (v ++ ' ' :: w ++ '\t' :: ' ' :: '#' :: r)) = .ok (put o k v) := by
  unfold readLine
  have e := cut_line k (v ++ ' ' :: w) r hk (by
    intro c hc
    rcases List.mem_append.1 hc with h1 | h1
    · exact (hv.2 c h1).2
    · rcases List.mem_cons.1 h1 with h2 | h2
      · rw [h2]; decide
      · exact (hw.2 c h2).2)
  rw [show k ++ '\t' :: (v ++ ' ' :: w ++ '\t' :: ' ' :: '#' :: r) = k ++ '\t' :: ((v ++ ' ' :: w) ++ '\t' :: ' ' :: '#' :: r) by simp, e]
  have hw2 : words (k ++ '\t' :: ((v ++ ' ' :: w) ++ ['\t', ' '])) = [k, v, w] := by
    unfold words
    rw [wordsAux_word k (fun c hc => (hk.2 c hc).1), wordsAux_space '\t' (by decide), List.nil_append, if_neg hk.1]
    rw [List.append_assoc, wordsAux_word v (fun c hc => (hv.2 c hc).1)]
    rw [show (' ' :: w ++ ['\t', ' ']) = ' ' :: (w ++ ['\t', ' ']) by rfl, wordsAux_space ' ' (by decide), List.nil_append, if_neg hv.1]
    rw [wordsAux_word w (fun c hc => (hw.2 c hc).1), wordsAux_space '\t' (by decide), List.nil_append, if_neg hw.1]
    rfl
  rw [hw2]
  simp [h]

/-- **C123, limit.** An option that was set to the empty text keeps its default when the file is read. -/
theorem empty_lost (o : Opts) (k r : List Char) (hk : IsWord k) :
    readLine o (k ++ '\t' :: ([] ++ '\t' :: ' ' :: '#' :: r)) = .ok o := by
  unfold readLine
  rw [cut_line k [] r hk (by simp)]
  have : words (k ++ '\t' :: ([] ++ ['\t', ' '])) = [k] := by
    unfold words
    rw [wordsAux_word k (fun c hc => (hk.2 c hc).1), wordsAux_space '\t' (by decide), List.nil_append, if_neg hk.1]
    rfl
  rw [this]

/-- **C123, limit.** In a file without comments the last character of every line is cut off: harmless for the newline, but if the last line has none, the value
loses its last character. -/
theorem last_char_lost (o : Opts) (k v : List Char) (c : Char) (hk : IsWord k) (hv : IsWord v) (hc : isSpace c = false) (hc2 : c ≠ '#')
    (h : (get o k).isSome) : readLine o (k ++ '\t' :: (v ++ [c])) = .ok (put o k v) := by
  unfold readLine cut
  have hno : '#' ∉ k ++ '\t' :: (v ++ [c]) := by
    intro hm
    rcases List.mem_append.1 hm with h1 | h1
    · exact (hk.2 _ h1).2 rfl
    · rcases List.mem_cons.1 h1 with h2 | h2
      · exact absurd h2 (by decide)
      · rcases List.mem_append.1 h2 with h3 | h3
        · exact (hv.2 _ h3).2 rfl
        · exact hc2 (List.mem_singleton.1 h3).symm
  rw [if_neg hno]
  have hd : (k ++ '\t' :: (v ++ [c])).dropLast = k ++ '\t' :: v := by
    rw [show k ++ '\t' :: (v ++ [c]) = (k ++ '\t' :: v) ++ [c] by simp, List.dropLast_concat]
  rw [hd]
  have : words (k ++ '\t' :: v) = [k, v] := by
    unfold words
    rw [wordsAux_word k (fun c hc => (hk.2 c hc).1), wordsAux_space '\t' (by decide), List.nil_append, if_neg hk.1]
    have := wordsAux_word v (fun c hc => (hv.2 c hc).1) [] []
    rw [List.append_nil] at this
    rw [this]
    simp [wordsAux, hv.1]
  rw [this]
  simp [h]

/-- For instance a threshold of 15 is read as 1. -/
example : readLine [("THRESH".toList, "1.5".toList)] "THRESH 15".toList =
    .ok [("THRESH".toList, "1".toList), ("THRESH".toList, "1.5".toList)] := by decide

theorem words_param (p r : List Char) (hp : IsWord p) : (words (p ++ '\t' :: r)) = p :: words r := by
  unfold words
  rw [wordsAux_word p (fun c hc => (hp.2 c hc).1), wordsAux_space '\t' (by decide), List.nil_append, if_neg hp.1]

theorem readParams_written (known : List (List Char)) (info : List Char → List Char) :
    ∀ (ps sel : List (List Char)), (∀ p ∈ ps, IsWord p ∧ p ∈ known) →
      ∃ s, readParams known sel (asLines (ps.map (paramLine info))) = .ok s ∧ ∀ q, q ∈ s ↔ q ∈ ps ∨ q ∈ sel
  | [], sel, _ => ⟨sel, rfl, fun q => by simp⟩
  | p :: ps, sel, h => by
    obtain ⟨hp, hk⟩ := h p List.mem_cons_self
    obtain ⟨s, h1, h2⟩ := readParams_written known info ps (p :: sel) (fun q hq => h q (List.mem_cons_of_mem _ hq))
    have key : ∀ t, readParamLine known sel (paramLine info p ++ t) = .ok (p :: sel) := by
      intro t
      unfold readParamLine paramLine
      rw [show p ++ '\t' :: ' ' :: '#' :: ' ' :: info p ++ t = p ++ '\t' :: (' ' :: '#' :: ' ' :: info p ++ t) by simp, words_param p _ hp]
      have hh : p.head? ≠ some '#' := by
        cases p with
        | nil => exact absurd rfl hp.1
        | cons c r =>
          intro hc
          have : c = '#' := by simpa using hc
          exact (hp.2 c List.mem_cons_self).2 this
      simp only [hh, if_false, hk, if_true]
    refine ⟨s, ?_, ?_⟩
    · cases ps with
      | nil =>
        have := key []
        rw [List.append_nil] at this
        exact (readParams_cons known sel _ _ [] this).trans h1
      | cons q r =>
        exact (readParams_cons known sel _ _ (asLines ((q :: r).map (paramLine info))) (key ['\n'])).trans h1
    · intro q
      rw [h2]
      simp only [List.mem_cons]
      tauto

/-- **C123.** The parameter file selects, when it is read, exactly the parameters that were selected when it was written. -/
theorem params_roundtrip (order : List (List Char)) (info : List Char → List Char) (sel : List Char → Bool)
    (hw : ∀ p ∈ order, IsWord p) :
    ∃ s, readParams order [] (asLines (writeParams order info sel)) = .ok s ∧ ∀ q, q ∈ s ↔ q ∈ order ∧ sel q = true := by
  obtain ⟨s, h1, h2⟩ := readParams_written order info (order.filter sel) []
    (fun p hp => ⟨hw p (List.mem_filter.1 hp).1, (List.mem_filter.1 hp).1⟩)
  refine ⟨s, h1, fun q => ?_⟩
  rw [h2]
  simp

/-- A parameter that the program does not have is refused wherever it stands in a file. -/
theorem unknown_param_refused (known : List (List Char)) (p t : List Char) (post : List (List Char)) (hp : IsWord p) (hn : p ∉ known) :
    ∀ (pre sel : List (List Char)), readParams known sel (pre ++ (p ++ '\t' :: t) :: post) = .error .value
  | [], sel => by
    have hh : p.head? ≠ some '#' := by
      cases p with
      | nil => exact absurd rfl hp.1
      | cons c r =>
        intro hc
        have : c = '#' := by simpa using hc
        exact (hp.2 c List.mem_cons_self).2 this
    have : readParamLine known sel (p ++ '\t' :: t) = .error .value := by
      unfold readParamLine
      rw [words_param p t hp]
      simp [hh, hn]
    rw [List.nil_append, readParams, this]
  | l :: pre, sel => by
    rw [List.cons_append, readParams]
    cases hl : readParamLine known sel l with
    | error e => cases e; rfl
    | ok s => exact unknown_param_refused known p t post hp hn pre s

example : IsWord "NUMBER".toList ∧ "NUMBER".toList ∉ ["X_IMAGE".toList] := ⟨⟨by decide, by decide⟩, by decide⟩

/-! ## The names of the files -/

/-- A file name base split at `-` (`fnbase.split('-')`). -/
abbrev Name := List String

/-- `sextractImage` with `overwrite` False, phot.py 2722-2735: if the file exists, the number at the end is counted up, or `2` put in its place (after the
name, if there is no `-`); whether the new name exists is not looked at.  `parse` is `int(...)`, `shw` is `str(...)`. -/
def newName (parse : String → Option Int) (shw : Int → String) (exist : Name → Bool) (n : Name) : Name :=
  if exist n then
    let i := match parse (n.getLastD "") with
      | some i => i + 1
      | none => 2
    if n.length < 2 then n ++ [shw i] else n.dropLast ++ [shw i]
  else n

/-- One call: the files that exist before, and the name of the object; afterwards the file with the name exists. -/
structure World where
  files : List Name
  name : Name
/-- The names of the options files written, in order. -/
def call (parse : String → Option Int) (shw : Int → String) (overwrite : Bool) (w : World) : World × Name :=
  let n := if overwrite then w.name else newName parse shw (fun x => decide (x ∈ w.files)) w.name
  (⟨n :: w.files, n⟩, n)

/-- Several calls: the world after them and the names written. -/
def calls (parse : String → Option Int) (shw : Int → String) : Nat → World → World × List Name
  | 0, w => (w, [])
  | k + 1, w =>
    let r := call parse shw false w
    let s := calls parse shw k r.1
    (s.1, r.2 :: s.2)

/-- The name base with the number `i`. -/
def numbered (shw : Int → String) (b : String) (i : Int) : Name := [b, shw i]

/-- The name of the call after the one that wrote number `i` (the first name has no number; it counts as 1). -/
def nth (shw : Int → String) (b : String) (i : Nat) : Name := if i ≤ 1 then [b] else numbered shw b i

theorem newName_nth (parse : String → Option Int) (shw : Int → String) (hps : ∀ i, parse (shw i) = some i) (b : String)
    (hb : parse b = none) (exist : Name → Bool) (i : Nat) (hi : 1 ≤ i) (h : exist (nth shw b i) = true) :
    newName parse shw exist (nth shw b i) = nth shw b (i + 1) := by
  unfold newName
  rw [if_pos h]
  by_cases h1 : i ≤ 1
  · have : i = 1 := by omega
    subst this
    simp [nth, numbered, hb]
  · have e1 : nth shw b i = [b, shw i] := by unfold nth numbered; rw [if_neg h1]
    have e2 : nth shw b (i + 1) = [b, shw (i + 1 : Int)] := by
      unfold nth numbered; rw [if_neg (by omega)]; rfl
    rw [e1, e2]
    simp [hps]

theorem nth_inj (parse : String → Option Int) (shw : Int → String) (hps : ∀ i, parse (shw i) = some i) (b : String) (i j : Nat)
    (hi : 1 ≤ i) (hj : 1 ≤ j) (h : nth shw b i = nth shw b j) : i = j := by
  unfold nth numbered at h
  by_cases h1 : i ≤ 1 <;> by_cases h2 : j ≤ 1
  · omega
  · simp [h1, h2] at h
  · simp [h1, h2] at h
  · simp only [h1, h2, if_false, List.cons.injEq, and_true, true_and] at h
    have := congrArg parse h
    rw [hps, hps] at this
    have := Option.some.inj this
    omega

theorem calls_aux (parse : String → Option Int) (shw : Int → String) (hps : ∀ i, parse (shw i) = some i) (b : String)
    (hb : parse b = none) : ∀ (k i : Nat) (files : List Name), 1 ≤ i → nth shw b i ∈ files → (∀ j, i < j → nth shw b j ∉ files) →
      (calls parse shw k ⟨files, nth shw b i⟩).2 = (List.range k).map (fun j => nth shw b (i + 1 + j))
  | 0, _, _, _, _, _ => rfl
  | k + 1, i, files, hi, hmem, hfree => by
    have hn : newName parse shw (fun x => decide (x ∈ files)) (nth shw b i) = nth shw b (i + 1) :=
      newName_nth parse shw hps b hb _ i hi (by simpa using hmem)
    have hcall : call parse shw false ⟨files, nth shw b i⟩ = (⟨nth shw b (i + 1) :: files, nth shw b (i + 1)⟩, nth shw b (i + 1)) := by
      unfold call
      simp [hn]
    have ih := calls_aux parse shw hps b hb k (i + 1) (nth shw b (i + 1) :: files) (by omega) List.mem_cons_self (by
      intro j hj hm
      rcases List.mem_cons.1 hm with h | h
      · have := nth_inj parse shw hps b j (i + 1) (by omega) (by omega) h
        omega
      · exact hfree j (by omega) h)
    show (call parse shw false ⟨files, nth shw b i⟩).2 :: (calls parse shw k (call parse shw false ⟨files, nth shw b i⟩).1).2 = _
    rw [hcall, ih, List.range_succ_eq_map, List.map_cons, List.map_map]
    congr 1
    refine List.map_congr_left ?_
    intro j _
    simp only [Function.comp]
    congr 1
    omega

/-- **C124.** In a directory without files of that name, a base name without `-` that is no number gives, call after call, the names `b`, `b-2`, `b-3`, ...: no
file is written twice, for any number of calls. -/
theorem names_count_up (parse : String → Option Int) (shw : Int → String) (hps : ∀ i, parse (shw i) = some i) (b : String)
    (hb : parse b = none) (files : List Name) (hfree : ∀ j, 1 ≤ j → nth shw b j ∉ files) (k : Nat) :
    (calls parse shw k ⟨files, [b]⟩).2 = (List.range k).map (fun j => nth shw b (j + 1)) ∧
    ((List.range k).map (fun j => nth shw b (j + 1))).Nodup ∧ ∀ n ∈ (List.range k).map (fun j => nth shw b (j + 1)), n ∉ files := by
  refine ⟨?_, ?_, ?_⟩
  · cases k with
    | zero => rfl
    | succ k =>
      have h1 : ([b] : Name) ∉ files := hfree 1 (by omega)
      have hcall : call parse shw false ⟨files, [b]⟩ = (⟨nth shw b 1 :: files, nth shw b 1⟩, nth shw b 1) := by
        have : newName parse shw (fun x => decide (x ∈ files)) [b] = [b] := by
          unfold newName
          rw [if_neg (by simpa using h1)]
        unfold call
        simp [this, nth]
      show (call parse shw false ⟨files, [b]⟩).2 :: (calls parse shw k (call parse shw false ⟨files, [b]⟩).1).2 = _
      rw [hcall]
      have := calls_aux parse shw hps b hb k 1 (nth shw b 1 :: files) (by omega) List.mem_cons_self (by
        intro j hj hm
        rcases List.mem_cons.1 hm with h | h
        · have := nth_inj parse shw hps b j 1 (by omega) (by omega) h
          omega
        · exact hfree j (by omega) h)
      rw [this, List.range_succ_eq_map, List.map_cons, List.map_map]
      congr 1
      refine List.map_congr_left ?_
      intro j _
      simp only [Function.comp]
      congr 1
      omega
  · refine List.Nodup.map_on ?_ List.nodup_range
    intro x _ y _ h
    have := nth_inj parse shw hps b (x + 1) (y + 1) (by omega) (by omega) h
    omega
  · intro n hn
    obtain ⟨j, -, rfl⟩ := List.mem_map.1 hn
    exact hfree (j + 1) (by omega)

/-- **C124, limit.** With `overwrite` False a file that exists can be replaced: if `b` and `b-2` exist, the object named `b` writes `b-2`. -/
theorem overwrites_anyway (parse : String → Option Int) (shw : Int → String) (b : String) (hb : parse b = none) :
    (call parse shw false ⟨[[b], [b, shw 2]], [b]⟩).2 = [b, shw 2] := by
  simp [call, newName, hb]

/-- **C124, limit.** What follows the last `-` of a name is lost if it is no number: `my-run` becomes `my-2`. -/
theorem name_part_lost (parse : String → Option Int) (shw : Int → String) (x y : String) (hy : parse y = none) (files : List Name)
    (h : [x, y] ∈ files) : (call parse shw false ⟨files, [x, y]⟩).2 = [x, shw 2] := by
  simp [call, newName, hy, h]

/-- `_saveFiles(fnbase)`, phot.py 2663-2680: the directory part is put before a name that already contains it.  Paths are lists of components. -/
def paramsPath (fnbase : List String) : List String := fnbase.dropLast ++ fnbase

/-- **C124, limit.** The parameter file lies beside the options file exactly if the name has no directory part. -/
theorem params_beside (dir : List String) (f : String) : paramsPath (dir ++ [f]) = dir ++ [f] ↔ dir = [] := by
  unfold paramsPath
  rw [List.dropLast_concat]
  constructor
  · intro h
    have := congrArg List.length h
    simp at this
    exact this
  · rintro rfl; rfl

end Verif.Sextractor
