import Mathlib.Data.List.Basic
import Mathlib.Data.List.Sort
import Mathlib.Tactic.Linarith

/-!
# Fixed-column data files (astropysics/utils/io.py 569-811)

`FixedColumnDataParser`: `addColumn`, `delColumn`, `_overlapcheck` and the row splitting of
`parseFile`.  A row is its list of characters including the final newline, as Python reads it.
Formats and the conversion of the collected strings to numpy types are not modelled; an invalid
format (TypeError from `np.dtype`, raised first) is the flag `badFormat`.
-/

namespace Verif.FixedColumn

/-- A column: inclusive bounds in the numbering that starts at `firstcolindx`, and its converter
dictionary (io.py 630). -/
structure Column where
  lower : Int
  upper : Int
  convs : Option (List (List Char × List Char)) := none

/-- The parser object (io.py 591-594).  `cols` is a dict: names are distinct. -/
structure Parser where
  cols : List (String × Column) := []
  skiprows : Nat := 0
  firstcolindx : Int := 1
  commentchars : List Char := ['#']

inductive Err where
  | valueError (overlapping : String)
  | typeError
  | keyError
  | indexError
deriving DecidableEq, Repr

/-- io.py 596-599: `lower <= u and upper >= l` against every column but the excluded one. -/
def overlapCheck (p : Parser) (lower upper : Int) (exclude : String) : Option String :=
  (p.cols.find? (fun nc => nc.1 != exclude && (decide (lower ≤ nc.2.upper) &&
    decide (upper ≥ nc.2.lower)))).map (·.1)

/-- dict assignment. -/
def assign : List (String × Column) → String → Column → List (String × Column)
  | [], n, c => [(n, c)]
  | x :: l, n, c => if x.1 = n then (n, c) :: l else x :: assign l n c

/-- io.py 603-630. -/
def addColumn (p : Parser) (name : String) (c : Column) (badFormat : Bool) : Except Err Parser :=
  if badFormat then .error .typeError
  else match overlapCheck p c.lower c.upper name with
    | some n => .error (.valueError n)
    | none => .ok { p with cols := assign p.cols name c }

/-- io.py 734-741. -/
def delColumn (p : Parser) (name : String) : Except Err Parser :=
  if name ∈ p.cols.map (·.1) then .ok { p with cols := p.cols.filter (fun nc => nc.1 != name) }
  else .error .keyError

/-- A Python slice bound: negative counts from the end; clipped to the sequence. -/
def bound (n : Nat) (i : Int) : Nat :=
  if i < 0 then (i + n).toNat else min i.toNat n

/-- `row[li:ui]`. -/
def pySlice {α : Type} (l : List α) (i j : Int) : List α :=
  (l.take (bound l.length j)).drop (bound l.length i)

/-- io.py 769-776: the field of one row for one column. -/
def field (p : Parser) (c : Column) (row : List Char) : List Char :=
  let addi := - p.firstcolindx
  let val := pySlice row (c.lower + addi) (c.upper + addi + 1)
  match c.convs with
  | none => val
  | some d => ((d.find? (fun kv => kv.1 = val)).map (·.2)).getD val

/-- Whitespace removed by `strip` (spaces, tabs, line ends). -/
def isSpace (ch : Char) : Bool := ch = ' ' || ch = '\t' || ch = '\n' || ch = '\r'

/-- io.py 766-767: rows that are data. -/
def validRow (p : Parser) (i : Nat) (row : List Char) : Bool :=
  decide (p.skiprows ≤ i) &&
    match row.dropWhile isSpace with
    | [] => false
    | ch :: _ => !p.commentchars.contains ch

/-- io.py 757-776: the columns of strings collected from the rows of the file. -/
def parseRows (p : Parser) (rows : List (List Char)) :
    Except Err (List (String × List (List Char))) :=
  if p.cols.length = 0 then .error .indexError
  else .ok (p.cols.map (fun nc => (nc.1,
    (rows.zipIdx.filter (fun ri => validRow p ri.2 ri.1)).map (fun ri => field p nc.2 ri.1))))

/-- io.py 784-786: the mask of a field: it is True (valid) if the text is not blank. -/
def maskOf (f : List Char) : Bool := f.any (fun ch => !isSpace ch)

/-- io.py 778-786: the columns in the order of their lower bounds, each with the values (None for blank fields) and
the masks.  (`argsort` is not stable, but the lower bounds of nonempty columns that do not overlap differ.)  The conversion to numpy
types is not modelled. -/
def parseFile (p : Parser) (rows : List (List Char)) :
    Except Err (List (String × List (Option (List Char)) × List Bool)) :=
  match parseRows p rows with
  | .error e => .error e
  | .ok lists => .ok (((p.cols.zip lists).insertionSort (fun x y => x.1.2.lower ≤ y.1.2.lower)).map (fun x =>
      (x.2.1, x.2.2.map (fun f => if maskOf f then some f else none), x.2.2.map maskOf)))

/-- Calls that change the layout. -/
inductive Op where
  | add (name : String) (c : Column) (badFormat : Bool)
  | del (name : String)

def exec (p : Parser) : Op → Except Err Parser
  | .add n c bad => addColumn p n c bad
  | .del n => delColumn p n

/-- A history; rejected calls leave the parser as it was. -/
def run (p : Parser) : List Op → Parser
  | [] => p
  | op :: ops => match exec p op with
    | .ok p' => run p' ops
    | .error _ => run p ops

/-! ## Properties (C35) -/

/-- Specification: the character positions of a column. -/
def Covers (c : Column) (pos : Int) : Prop := c.lower ≤ pos ∧ pos ≤ c.upper

/-- Specification: names are distinct and no position belongs to two columns. -/
def Disjoint' (p : Parser) : Prop :=
  (p.cols.map (·.1)).Nodup ∧
  ∀ x ∈ p.cols, ∀ y ∈ p.cols, x.1 ≠ y.1 → ∀ pos, ¬ (Covers x.2 pos ∧ Covers y.2 pos)

theorem mem_assign (l : List (String × Column)) (n : String) (c : Column) (x : String × Column)
    (hl : (l.map (·.1)).Nodup) (h : x ∈ assign l n c) : x = (n, c) ∨ (x ∈ l ∧ x.1 ≠ n) := by
  induction l with
  | nil => simp [assign] at h; exact Or.inl h
  | cons y l ih =>
    rw [List.map_cons, List.nodup_cons] at hl
    unfold assign at h
    by_cases hy : y.1 = n
    · simp only [hy, if_true, List.mem_cons] at h
      rcases h with h | h
      · exact Or.inl h
      · refine Or.inr ⟨List.mem_cons_of_mem _ h, ?_⟩
        intro e
        exact hl.1 (by rw [hy, ← e]; exact List.mem_map_of_mem h)
    · simp only [hy, if_false, List.mem_cons] at h
      rcases h with h | h
      · subst h; exact Or.inr ⟨by simp, hy⟩
      · rcases ih hl.2 h with h | h
        · exact Or.inl h
        · exact Or.inr ⟨List.mem_cons_of_mem _ h.1, h.2⟩

theorem names_assign (l : List (String × Column)) (n : String) (c : Column) :
    (assign l n c).map (·.1) = if n ∈ l.map (·.1) then l.map (·.1) else l.map (·.1) ++ [n] := by
  induction l with
  | nil => simp [assign]
  | cons y l ih =>
    unfold assign
    by_cases hy : y.1 = n
    · simp [hy]
    · have hy' : ¬ n = y.1 := fun e => hy e.symm
      simp only [hy, if_false, List.map_cons, ih, List.mem_cons, hy', false_or]
      split_ifs <;> simp

theorem overlapCheck_none (p : Parser) (lo up : Int) (ex : String)
    (h : overlapCheck p lo up ex = none) :
    ∀ x ∈ p.cols, x.1 ≠ ex → ¬ (lo ≤ x.2.upper ∧ up ≥ x.2.lower) := by
  intro x hx hne hov
  unfold overlapCheck at h
  rw [Option.map_eq_none_iff, List.find?_eq_none] at h
  have := h x hx
  simp [hne, hov.1, hov.2] at this

/-- One call keeps the layout disjoint. -/
theorem disjoint_exec (p p' : Parser) (op : Op) (hp : Disjoint' p) (h : exec p op = .ok p') :
    Disjoint' p' := by
  obtain ⟨h1, h2⟩ := hp
  cases op with
  | add n c bad =>
    simp only [exec, addColumn] at h
    split_ifs at h
    split at h
    · simp at h
    · rename_i hov
      simp only [Except.ok.injEq] at h
      subst h
      have hno := overlapCheck_none p _ _ _ hov
      refine ⟨?_, ?_⟩
      · simp only
        rw [names_assign]
        split_ifs with hn
        · exact h1
        · rw [List.nodup_append]
          exact ⟨h1, by simp, by intro a ha b hb; simp at hb; subst hb; exact fun e => hn (e ▸ ha)⟩
      · intro x hx y hy hne pos hcov
        rcases mem_assign _ _ _ _ h1 hx with rfl | ⟨hx, hxn⟩ <;>
          rcases mem_assign _ _ _ _ h1 hy with rfl | ⟨hy, hyn⟩
        · exact hne rfl
        · have := hno y hy hyn
          obtain ⟨⟨a, b⟩, c', d⟩ := hcov
          simp only at a b
          omega
        · have := hno x hx hxn
          obtain ⟨⟨a, b⟩, c', d⟩ := hcov
          simp only at c' d
          omega
        · exact h2 x hx y hy hne pos hcov
  | del n =>
    simp only [exec, delColumn] at h
    split_ifs at h
    simp only [Except.ok.injEq] at h
    subst h
    refine ⟨(List.filter_sublist.map _).nodup h1, ?_⟩
    intro x hx y hy
    exact h2 x (List.mem_of_mem_filter hx) y (List.mem_of_mem_filter hy)

/-- C35: after any history of addColumn and delColumn calls, rejected ones included, names are
distinct and no character position belongs to two columns. -/
theorem columns_never_overlap (skip : Nat) (first : Int) (comment : List Char) (ops : List Op) :
    Disjoint' (run ⟨[], skip, first, comment⟩ ops) := by
  have h0 : Disjoint' ⟨[], skip, first, comment⟩ := ⟨by simp, by simp⟩
  generalize (⟨[], skip, first, comment⟩ : Parser) = p at h0
  induction ops generalizing p with
  | nil => exact h0
  | cons op ops ih =>
    unfold run
    cases h : exec p op with
    | ok p' => exact ih p' (disjoint_exec p p' op h0 h)
    | error e => exact ih p h0

/-- C35, the check is not too strict either: for nonempty columns a column is rejected exactly if it
shares a position with a column of another name. -/
theorem add_rejected_iff (p : Parser) (n : String) (c : Column) (hc : c.lower ≤ c.upper)
    (hp : ∀ x ∈ p.cols, x.2.lower ≤ x.2.upper) :
    (∃ m, addColumn p n c false = .error (.valueError m)) ↔
      ∃ x ∈ p.cols, x.1 ≠ n ∧ ∃ pos, Covers x.2 pos ∧ Covers c pos := by
  have key : (∃ m, addColumn p n c false = .error (.valueError m)) ↔
      overlapCheck p c.lower c.upper n ≠ none := by
    unfold addColumn
    cases overlapCheck p c.lower c.upper n <;> simp
  rw [key]
  unfold overlapCheck
  rw [ne_eq, Option.map_eq_none_iff, List.find?_eq_none]
  push Not
  constructor
  · rintro ⟨x, hx, h⟩
    simp only [bne_iff_ne, ne_eq, Bool.and_eq_true, decide_eq_true_eq] at h
    obtain ⟨h1, h2, h3⟩ := h
    refine ⟨x, hx, h1, max c.lower x.2.lower, ?_⟩
    have := hp x hx
    unfold Covers
    omega
  · rintro ⟨x, hx, hne, pos, ⟨a, b⟩, ⟨c', d⟩⟩
    refine ⟨x, hx, ?_⟩
    simp only [bne_iff_ne, ne_eq, Bool.and_eq_true, decide_eq_true_eq]
    exact ⟨hne, by omega, by omega⟩

/-- A reversed (empty) column can be rejected although it shares no position with anything. -/
example : ∃ m, addColumn ⟨[("a", ⟨1, 20, none⟩)], 0, 1, ['#']⟩ "b" ⟨10, 2, none⟩ false
    = .error (.valueError m) := ⟨"a", by rfl⟩

/-- C35: the field of a column that starts at or after the first column number is exactly the
characters of the row at the column's positions (as many of them as the row has). -/
theorem field_text (p : Parser) (c : Column) (row : List Char) (hc : c.convs = none)
    (h1 : p.firstcolindx ≤ c.lower) (h2 : c.lower ≤ c.upper + 1) (k : Nat) :
    (field p c row)[k]? =
      if (k : Int) ≤ c.upper - c.lower then row[(c.lower - p.firstcolindx).toNat + k]? else none := by
  unfold field pySlice bound
  simp only [hc]
  rw [if_neg (by omega), if_neg (by omega)]
  rw [List.getElem?_drop]
  rw [List.getElem?_take]
  split_ifs with ha hb hb
  · by_cases hle : (c.lower + -p.firstcolindx).toNat ≤ row.length
    · congr 1; omega
    · exfalso; omega
  · exfalso; omega
  · by_cases hge : row.length ≤ (c.lower - p.firstcolindx).toNat + k
    · rw [List.getElem?_eq_none hge]
    · exfalso; omega
  · rfl

/-- ... so different columns never read the same character. -/
theorem fields_disjoint (p : Parser) (hp : Disjoint' p) (x y : String × Column)
    (hx : x ∈ p.cols) (hy : y ∈ p.cols) (hne : x.1 ≠ y.1)
    (hx1 : p.firstcolindx ≤ x.2.lower) (hy1 : p.firstcolindx ≤ y.2.lower) (i j : Nat)
    (hi : (i : Int) ≤ x.2.upper - x.2.lower) (hj : (j : Int) ≤ y.2.upper - y.2.lower) :
    (x.2.lower - p.firstcolindx).toNat + i ≠ (y.2.lower - p.firstcolindx).toNat + j := by
  intro h
  refine hp.2 x hx y hy hne (x.2.lower + i) ⟨⟨by omega, by omega⟩, ?_⟩
  constructor <;> omega

/-- C35 refuted below the first column number: with the default numbering from 1, a column declared
at 0 reads from the *end* of the row (here the column 0-2 of "abcdef\n" is empty). -/
theorem column_zero_wrong :
    field ⟨[], 0, 1, ['#']⟩ ⟨0, 2, none⟩ "abcdef\n".toList = [] := by decide

/-- The line end is part of the row: a column that reaches past the text includes it, and then its
converter entry does not apply. -/
theorem newline_included :
    field ⟨[], 0, 1, ['#']⟩ ⟨3, 5, none⟩ "ab--\n".toList = "--\n".toList ∧
    field ⟨[], 0, 1, ['#']⟩ ⟨3, 5, some [("--".toList, [])]⟩ "ab--\n".toList = "--\n".toList := by
  decide

/-- Specification: row number `i` (from 0) of the file is data: it is not skipped and its first character other than white space
exists and starts no comment. -/
def DataRow (p : Parser) (i : Nat) (row : List Char) : Prop :=
  p.skiprows ≤ i ∧ ∃ pre ch post, row = pre ++ ch :: post ∧ (∀ c ∈ pre, c ∈ [' ', '\t', '\n', '\r']) ∧
    ch ∉ [' ', '\t', '\n', '\r'] ∧ ch ∉ p.commentchars

theorem isSpace_iff (ch : Char) : isSpace ch = true ↔ ch ∈ [' ', '\t', '\n', '\r'] := by
  simp [isSpace, or_assoc]

theorem validRow_iff (p : Parser) (i : Nat) (row : List Char) : validRow p i row = true ↔ DataRow p i row := by
  unfold validRow DataRow
  rw [Bool.and_eq_true, decide_eq_true_eq]
  apply and_congr_right
  intro _
  constructor
  · intro h
    cases hd : row.dropWhile isSpace with
    | nil => rw [hd] at h; simp at h
    | cons ch post =>
      rw [hd] at h
      refine ⟨row.takeWhile isSpace, ch, post, ?_, ?_, ?_, ?_⟩
      · rw [← hd, List.takeWhile_append_dropWhile]
      · intro c hc
        rw [← isSpace_iff]
        exact (List.all_eq_true.1 (List.all_takeWhile (p := isSpace) (l := row))) c hc
      · have := List.head?_dropWhile_not isSpace row
        rw [hd] at this
        rw [← isSpace_iff]
        simpa using this
      · simpa using h
  · rintro ⟨pre, ch, post, rfl, h1, h2, h3⟩
    have : (pre ++ ch :: post).dropWhile isSpace = ch :: post := by
      rw [List.dropWhile_append_of_pos (fun c hc => (isSpace_iff c).2 (h1 c hc))]
      rw [List.dropWhile_cons_of_neg]
      rw [isSpace_iff]; exact h2
    rw [this]
    simpa using h3

/-- C35: every column receives exactly the fields of the data rows, in file order. -/
theorem parse_rows_spec (p : Parser) (rows : List (List Char)) (res) (h : parseRows p rows = .ok res) :
    ∃ idx : List Nat, idx.Pairwise (· < ·) ∧ (∀ i, i ∈ idx ↔ ∃ row, rows[i]? = some row ∧ DataRow p i row) ∧
      res = p.cols.map (fun nc => (nc.1, idx.map (fun i => field p nc.2 (rows[i]?.getD [])))) := by
  unfold parseRows at h
  split_ifs at h
  simp only [Except.ok.injEq] at h
  subst h
  refine ⟨(rows.zipIdx.filter (fun ri => validRow p ri.2 ri.1)).map (·.2), ?_, ?_, ?_⟩
  · have h1 : (rows.zipIdx.map (·.2)).Pairwise (· < ·) := by
      rw [List.zipIdx_map_snd]
      exact List.pairwise_lt_range'
    exact h1.sublist ((List.filter_sublist).map _)
  · intro i
    rw [List.mem_map]
    constructor
    · rintro ⟨ri, hri, rfl⟩
      rw [List.mem_filter] at hri
      refine ⟨ri.1, ?_, (validRow_iff _ _ _).1 hri.2⟩
      have := List.mem_zipIdx_iff_getElem?.1 hri.1
      simpa using this
    · rintro ⟨row, h1, h2⟩
      refine ⟨(row, i), ?_, rfl⟩
      rw [List.mem_filter]
      exact ⟨List.mem_zipIdx_iff_getElem?.2 h1, (validRow_iff _ _ _).2 h2⟩
  · apply List.map_congr_left
    intro nc _
    rw [List.map_map]
    congr 1
    apply List.map_congr_left
    intro ri hri
    have := List.mem_zipIdx_iff_getElem?.1 (List.mem_of_mem_filter hri)
    simp [this]

/-- C35: a parse without columns raises; otherwise the columns come out in the order of their positions, each with the texts of the
data rows: None and an invalid mask exactly where the text is blank. -/
theorem parse_file_spec (p : Parser) (rows : List (List Char)) :
    (p.cols = [] → parseFile p rows = .error .indexError) ∧
    (p.cols ≠ [] → ∃ (lists : List (String × List (List Char))) (cols' : List (String × Column)), parseRows p rows = .ok lists ∧ cols'.Perm p.cols ∧
      cols'.Pairwise (fun x y => x.2.lower ≤ y.2.lower) ∧
      ∃ res, parseFile p rows = .ok res ∧ res.map (·.1) = cols'.map (·.1) ∧
      ∀ x ∈ res, ∃ fields, (x.1, fields) ∈ lists ∧ x.2.1.length = fields.length ∧ x.2.2.length = fields.length ∧
        ∀ (k : Nat) (f : List Char), fields[k]? = some f →
          ((∃ ch ∈ f, ch ∉ [' ', '\t', '\n', '\r']) → x.2.1[k]? = some (some f) ∧ x.2.2[k]? = some true) ∧
          ((∀ ch ∈ f, ch ∈ [' ', '\t', '\n', '\r']) → x.2.1[k]? = some none ∧ x.2.2[k]? = some false)) := by
  constructor
  · intro h
    simp [parseFile, parseRows, h]
  · intro h
    have hlen : p.cols.length ≠ 0 := by simpa using h
    obtain ⟨g, hg⟩ : ∃ g : String × Column → String × List (List Char), (∀ nc, (g nc).1 = nc.1) ∧
        parseRows p rows = .ok (p.cols.map g) :=
      ⟨fun nc => (nc.1, (rows.zipIdx.filter (fun ri => validRow p ri.2 ri.1)).map (fun ri => field p nc.2 ri.1)),
        fun _ => rfl, by simp only [parseRows]; rw [if_neg hlen]⟩
    have hz : p.cols.zip (p.cols.map g) = p.cols.map (fun nc => (nc, g nc)) := by
      clear h hlen hg
      induction p.cols with
      | nil => rfl
      | cons x l ih => simp [ih]
    set srt := (p.cols.map (fun nc => (nc, g nc))).insertionSort (fun x y => x.1.2.lower ≤ y.1.2.lower) with hsrt
    have hperm : srt.Perm (p.cols.map (fun nc => (nc, g nc))) := List.perm_insertionSort _ _
    have hmem : ∀ x ∈ srt, x.1 ∈ p.cols ∧ x.2 = g x.1 := by
      intro x hx
      obtain ⟨nc, h1, rfl⟩ := List.mem_map.1 (hperm.mem_iff.1 hx)
      exact ⟨h1, rfl⟩
    refine ⟨_, srt.map (·.1), hg.2, ?_, ?_, srt.map (fun x => (x.2.1, x.2.2.map (fun f => if maskOf f then some f else none), x.2.2.map maskOf)), ?_, ?_, ?_⟩
    · have := hperm.map (·.1)
      rw [List.map_map] at this
      have e : ((fun x : (String × Column) × (String × List (List Char)) => x.1) ∘ fun nc => (nc, g nc)) = id := rfl
      rw [e, List.map_id] at this
      exact this
    · rw [List.pairwise_map]
      haveI : Std.Total (fun x y : (String × Column) × (String × List (List Char)) => x.1.2.lower ≤ y.1.2.lower) := ⟨fun _ _ => le_total _ _⟩
      haveI : IsTrans _ (fun x y : (String × Column) × (String × List (List Char)) => x.1.2.lower ≤ y.1.2.lower) := ⟨fun _ _ _ => le_trans⟩
      exact List.pairwise_insertionSort _ _
    · simp only [parseFile, hg.2, hz]
      rfl
    · rw [List.map_map, List.map_map]
      apply List.map_congr_left
      intro x hx
      obtain ⟨_, h2⟩ := hmem x hx
      simp only [Function.comp]
      rw [h2, hg.1]
    · intro x hx
      obtain ⟨y, hy, rfl⟩ := List.mem_map.1 hx
      obtain ⟨h1, h2⟩ := hmem y hy
      refine ⟨y.2.2, ?_, by simp, by simp, ?_⟩
      · simp only [Prod.mk.eta]
        rw [h2]; exact List.mem_map_of_mem h1
      · intro k f hf
        have hm : maskOf f = true ↔ ∃ ch ∈ f, ch ∉ [' ', '\t', '\n', '\r'] := by
          unfold maskOf
          rw [List.any_eq_true]
          constructor
          · rintro ⟨ch, a, b⟩
            exact ⟨ch, a, by rw [← isSpace_iff]; simpa using b⟩
          · rintro ⟨ch, a, b⟩
            exact ⟨ch, a, by rw [← isSpace_iff] at b; simpa using b⟩
        simp only [List.getElem?_map, hf, Option.map_some]
        constructor
        · intro ha
          rw [hm.2 ha]; exact ⟨rfl, rfl⟩
        · intro ha
          have : maskOf f = false := by
            rw [← Bool.not_eq_true, hm]
            rintro ⟨ch, a, b⟩
            exact b (ha ch a)
          rw [this]; exact ⟨rfl, rfl⟩

/-- C35: a deleted column is gone, the others stay; deleting a name that is not there raises. -/
theorem del_spec (p : Parser) (n : String) :
    (∀ p', delColumn p n = .ok p' → (∀ x, x ∈ p'.cols ↔ x ∈ p.cols ∧ x.1 ≠ n) ∧ p'.cols.Sublist p.cols ∧ n ∈ p.cols.map (·.1)) ∧
    (n ∉ p.cols.map (·.1) → delColumn p n = .error .keyError) ∧ (n ∈ p.cols.map (·.1) → ∃ p', delColumn p n = .ok p') := by
  refine ⟨?_, ?_, ?_⟩
  · intro p' h
    unfold delColumn at h
    split_ifs at h with hn
    simp only [Except.ok.injEq] at h
    subst h
    exact ⟨fun x => by simp, List.filter_sublist, hn⟩
  · intro h
    unfold delColumn
    rw [if_neg h]
  · intro h
    unfold delColumn
    rw [if_pos h]; exact ⟨_, rfl⟩

example : (parseFile ⟨[("b", ⟨4, 5, none⟩), ("a", ⟨1, 2, none⟩)], 1, 1, ['#']⟩
    ["head".toList, "# x".toList, "11 22\n".toList, " \n".toList, "3\n".toList]).toOption
    = some [("a", [some "11".toList, some "3\n".toList], [true, true]), ("b", [some "22".toList, none], [true, false])] := by
  rfl

/-- Every column receives one field per data row, in file order. -/
theorem parse_shape (p : Parser) (rows : List (List Char)) (res) (h : parseRows p rows = .ok res) :
    res.map (·.1) = p.cols.map (·.1) ∧
    ∀ x ∈ res, x.2.length = (rows.zipIdx.filter (fun ri => validRow p ri.2 ri.1)).length := by
  unfold parseRows at h
  split_ifs at h
  simp only [Except.ok.injEq] at h
  subst h
  constructor
  · rw [List.map_map]; rfl
  · intro x hx
    rw [List.mem_map] at hx
    obtain ⟨nc, _, rfl⟩ := hx
    simp

/-- Non-vacuity: the layout of the docstring, with a rejected call in between. -/
example :
    (run {} [.add "ID" ⟨1, 4, none⟩ false, .add "x" ⟨4, 6, none⟩ false,
      .add "data" ⟨5, 11, none⟩ false, .del "ID", .add "x" ⟨1, 3, none⟩ false]).cols.map (·.1)
      = ["data", "x"] := by decide

end Verif.FixedColumn
