import Verif.ConfigProps

/-!
# The registry of projects (astropysics/config.py 744-855)
-/

namespace Verif.Projects

open Verif.ConfigFile

/-- `dict(pc)`: the names and values. -/
def kv (d : Doc) : List (Str × Val) := d.entries.map (fun e => (e.key, e.val))

/-- `get_projects()`, config.py 774-784, for the text of the file 'projects'. -/
def getProjects (file : Option Str) : Except Err (List (Str × Val)) :=
  match load file with
  | .obj d => .ok (kv d)
  | .none => .error .typeError
  | .raised e => .error e

/-- `pc[name] = val`, configobj.py 582-638 for a scalar: an existing name keeps its place and comments. -/
def setVal (d : Doc) (k : Str) (v : Val) : Doc :=
  if k ∈ d.keys then { d with entries := d.entries.map (fun e => if e.key = k then { e with val := v } else e) }
  else { d with entries := d.entries ++ [⟨[], k, v⟩] }

/-- `del pc[name]`, configobj.py 641-649. -/
def delVal (d : Doc) (k : Str) : Doc := { d with entries := d.entries.filter (fun e => decide (e.key ≠ k)) }

inductive Op
  | add (name dir file : Str)
  | del (name : Str)

/-- The last lines of `add_project`, config.py 841-843, and `del_project`, config.py 847-853: the text written. -/
def newText (file : Option Str) : Op → Except Err Str
  | .add n d f => match load file with
    | .obj doc => write (setVal doc n (.list [d, f]))
    | .none => .error .typeError
    | .raised e => .error e
  | .del n => match load file with
    | .obj doc => if n ∈ doc.keys then write (delVal doc n) else .error .keyError
    | .none => .error .typeError
    | .raised e => .error e

/-- The file afterwards; an error is raised before the file is opened. -/
def step (file : Option Str) (op : Op) : Option Str :=
  match newText file op with
  | .ok t => some t
  | .error _ => file

/-! ## Specification -/

/-- A text can be stored: no line end, and not both kinds of quotes in a text that has to be quoted. -/
def NeedsQuotes (v : Str) : Prop := plainEnds v = false ∨ ',' ∈ v ∨ '#' ∈ v
instance (v : Str) : Decidable (NeedsQuotes v) := by unfold NeedsQuotes; infer_instance
def Storable (v : Str) : Prop := '\n' ∉ v ∧ ¬ ('\'' ∈ v ∧ '"' ∈ v ∧ NeedsQuotes v)

/-- The registry as the user sees it. -/
abbrev Reg := Str → Option (Str × Str)

/-- The operation is accepted. -/
def Accepted (r : Reg) : Op → Prop
  | .add n d f => Storable n ∧ Storable d ∧ Storable f
  | .del n => r n ≠ none

def effect (r : Reg) : Op → Reg
  | .add n d f => fun m => if m = n then some (d, f) else r m
  | .del n => fun m => if m = n then none else r m

open Classical in
noncomputable def specStep (r : Reg) (op : Op) : Reg := if Accepted r op then effect r op else r

/-- The texts of an operation can be represented in the file. -/
def OpOk : Op → Prop
  | .add n d f => NameOk n ∧ Clean d ∧ Clean f
  | .del _ => True

/-! ## Lemmas -/

theorem singleQuote_ok (v : Str) : (∃ q, singleQuote v = .ok q) ↔ ¬ ('\'' ∈ v ∧ '"' ∈ v) := by
  unfold singleQuote
  constructor
  · rintro ⟨q, h⟩ hb
    rw [if_pos hb] at h
    cases h
  · intro h
    rw [if_neg h]
    split
    · exact ⟨_, rfl⟩
    · exact ⟨_, rfl⟩

/-- A text is written exactly if it is storable. -/
theorem quote_ok_iff (v : Str) : (∃ q, quote v = .ok q) ↔ Storable v := by
  unfold quote Storable
  by_cases h0 : v = []
  · subst h0
    simp
  · rw [if_neg h0]
    by_cases hn : '\n' ∈ v
    · rw [if_pos hn]
      simp [hn]
    · rw [if_neg hn]
      by_cases hp : plainEnds v = true ∧ ',' ∉ v
      · rw [if_pos hp]
        by_cases hh : '#' ∈ v
        · rw [if_pos hh, singleQuote_ok]
          constructor
          · intro h
            exact ⟨hn, fun ⟨a, b, _⟩ => h ⟨a, b⟩⟩
          · rintro ⟨-, h⟩ ⟨a, b⟩
            exact h ⟨a, b, Or.inr (Or.inr hh)⟩
        · rw [if_neg hh]
          constructor
          · intro _
            refine ⟨hn, ?_⟩
            rintro ⟨-, -, h | h | h⟩
            · rw [hp.1] at h; cases h
            · exact hp.2 h
            · exact hh h
          · intro _
            exact ⟨v, rfl⟩
      · rw [if_neg hp, singleQuote_ok]
        have hq : NeedsQuotes v := by
          by_cases h1 : plainEnds v = true
          · exact Or.inr (Or.inl (by by_contra h2; exact hp ⟨h1, h2⟩))
          · exact Or.inl (by simpa using h1)
        constructor
        · intro h
          exact ⟨hn, fun ⟨a, b, _⟩ => h ⟨a, b⟩⟩
        · rintro ⟨-, h⟩ ⟨a, b⟩
          exact h ⟨a, b, hq⟩

/-- An entry as the program makes it. -/
def GoodKV (e : Str × Val) : Prop :=
  ∃ d f, e.2 = .list [d, f] ∧ NameOk e.1 ∧ Clean d ∧ Clean f ∧ Storable e.1 ∧ Storable d ∧ Storable f

def IsComment (l : Str) : Prop := OneLine l ∧ classify l = .comment

structure DocOk (d : Doc) : Prop where
  initial : ∀ l ∈ d.initial, IsComment l
  final : ∀ l ∈ d.final, IsComment l
  comments : ∀ e ∈ d.entries, ∀ l ∈ e.comments, IsComment l
  good : ∀ e ∈ kv d, GoodKV e
  nodup : d.keys.Nodup

theorem keys_kv (d : Doc) : d.keys = (kv d).map Prod.fst := by
  simp [Doc.keys, kv, List.map_map, Function.comp_def]

theorem classify_comment (l : Str) : classify l = .comment ↔ lstrip l = [] ∨ (lstrip l).head? = some '#' := by
  unfold classify
  split
  · next h => simp [h]
  · next h => simp [h]
  · next h => simp [h]
  · next h1 h2 h3 =>
    constructor
    · intro h
      exfalso
      split at h
      · cases h
      · split at h
        · cases h
        · split at h
          · cases h
          · split at h <;> cases h
    · rintro (h | h)
      · exact absurd h h1
      · cases hl : lstrip l with
        | nil => exact absurd hl h1
        | cons c r =>
          rw [hl] at h
          have : c = '#' := by simpa using h
          subst this
          exact absurd hl (h2 r)

theorem lstrip_lstrip (l : Str) : lstrip (lstrip l) = lstrip l := by
  unfold lstrip
  induction l with
  | nil => rfl
  | cons c l ih =>
    by_cases h : isS c = true
    · simp [List.dropWhile_cons, h, ih]
    · simp [List.dropWhile_cons, h]

theorem isComment_lstrip (l : Str) (h : IsComment l) : IsComment (lstrip l) := by
  refine ⟨?_, ?_⟩
  · have hs : ∀ c ∈ lstrip l, c ∈ l := fun c hc => (List.dropWhile_sublist isS).subset hc
    exact ⟨fun h' => h.1.1 (hs _ h'), fun h' => h.1.2 (hs _ h')⟩
  · rw [classify_comment, lstrip_lstrip]
    exact (classify_comment l).1 h.2

/-- The lines of a file and the entries they stand for. -/
inductive Lines : List Str → List (Str × Val) → Prop
  | nil : Lines [] []
  | comment (l : Str) (ls : List Str) (es : List (Str × Val)) (h : IsComment l) (r : Lines ls es) : Lines (l :: ls) es
  | entry (l k : Str) (v : Val) (ls : List Str) (es : List (Str × Val)) (h : classify l = .entry k v) (h1 : OneLine l)
      (r : Lines ls es) : Lines (l :: ls) ((k, v) :: es)

theorem lines_append (a b : List Str) (x y : List (Str × Val)) (ha : Lines a x) (hb : Lines b y) : Lines (a ++ b) (x ++ y) := by
  induction ha with
  | nil => exact hb
  | comment l ls es h _ ih => exact .comment l _ _ h ih
  | entry l k v ls es h h1 _ ih => exact .entry l k v _ _ h h1 ih

theorem lines_comments (ls : List Str) (h : ∀ l ∈ ls, IsComment l) : Lines ls [] := by
  induction ls with
  | nil => exact .nil
  | cons l ls ih => exact .comment l _ _ (h l List.mem_cons_self) (ih (fun m hm => h m (List.mem_cons_of_mem _ hm)))

theorem lines_oneLine (ls : List Str) (es : List (Str × Val)) (h : Lines ls es) : ∀ l ∈ ls, OneLine l := by
  induction h with
  | nil => simp
  | comment l ls es h _ ih =>
    intro m hm
    rcases List.mem_cons.1 hm with rfl | hm
    · exact h.1
    · exact ih m hm
  | entry l k v ls es h h1 _ ih =>
    intro m hm
    rcases List.mem_cons.1 hm with rfl | hm
    · exact h1
    · exact ih m hm

theorem classify_nil : classify [] = .comment := rfl

theorem lines_init (a : List Str) (es : List (Str × Val)) (h : Lines (a ++ [[]]) es) : Lines a es := by
  induction a generalizing es with
  | nil =>
    rw [List.nil_append] at h
    cases h with
    | comment _ _ _ _ r => exact r
    | entry l k v _ _ h => rw [classify_nil] at h; cases h
  | cons l a ih =>
    rw [List.cons_append] at h
    cases h with
    | comment _ _ _ h r => exact .comment l _ _ h (ih _ r)
    | entry _ k v _ es h h1 r => exact .entry l k v _ _ h h1 (ih _ r)

/-! ### Writing -/

theorem oneLine_form (v q : Str) (h : Form v q) (hv : OneLine v) : OneLine q := by
  cases h with
  | plain _ _ _ _ _ => exact hv
  | dq _ => exact ⟨by simpa using hv.1, by simpa using hv.2⟩
  | sq _ => exact ⟨by simpa using hv.1, by simpa using hv.2⟩

theorem oneLine_append (a b : Str) (ha : OneLine a) (hb : OneLine b) : OneLine (a ++ b) :=
  ⟨by simp [ha.1, hb.1], by simp [ha.2, hb.2]⟩

theorem entryLine_ok (e : Entry) (h : GoodKV (e.key, e.val)) :
    ∃ l, entryLine e = .ok l ∧ OneLine l ∧ classify l = .entry e.key e.val := by
  obtain ⟨d, f, hv, hn, hd, hf, sn, sd, sf⟩ := h
  obtain ⟨qn, hqn⟩ := (quote_ok_iff _).2 sn
  obtain ⟨qd, hqd⟩ := (quote_ok_iff _).2 sd
  obtain ⟨qf, hqf⟩ := (quote_ok_iff _).2 sf
  simp only at hv hqn hn sn
  refine ⟨qn ++ (' ' :: '=' :: ' ' :: (qd ++ (',' :: ' ' :: qf))), ?_, ?_, ?_⟩
  · unfold entryLine
    rw [hv]
    simp only [quoteVal, quoteAll, hqd, hqf, hqn, join]
    simp
  · have o1 := oneLine_form _ _ (quote_form _ _ hn.1 hqn) hn.1.1
    have o2 := oneLine_form _ _ (quote_form _ _ hd hqd) hd.1
    have o3 := oneLine_form _ _ (quote_form _ _ hf hqf) hf.1
    refine oneLine_append _ _ o1 ?_
    have : OneLine (qd ++ (',' :: ' ' :: qf)) :=
      oneLine_append _ _ o2 ⟨by simpa using o3.1, by simpa using o3.2⟩
    exact ⟨by simpa using this.1, by simpa using this.2⟩
  · rw [hv]
    exact classify_written _ d f qn qd qf hn hd hf hqn hqd hqf

theorem entryLines_ok : ∀ (es : List Entry), (∀ e ∈ es, ∀ l ∈ e.comments, IsComment l) → (∀ e ∈ es, GoodKV (e.key, e.val)) →
    ∃ ls, entryLines es = .ok ls ∧ Lines ls (es.map (fun e => (e.key, e.val)))
  | [], _, _ => ⟨[], rfl, .nil⟩
  | e :: es, hc, hg => by
    obtain ⟨l, h1, h2, h3⟩ := entryLine_ok e (hg e List.mem_cons_self)
    obtain ⟨ls, h4, h5⟩ := entryLines_ok es (fun x hx => hc x (List.mem_cons_of_mem _ hx)) (fun x hx => hg x (List.mem_cons_of_mem _ hx))
    refine ⟨e.comments.map lstrip ++ l :: ls, by simp [entryLines, h1, h4], ?_⟩
    have := lines_append (e.comments.map lstrip) (l :: ls) [] _ (lines_comments _ (by
      intro m hm
      obtain ⟨c, hc', rfl⟩ := List.mem_map.1 hm
      exact isComment_lstrip c (hc e List.mem_cons_self c hc'))) (.entry l e.key e.val _ _ h3 h2 h5)
    simpa using this

/-! ### Lines and text -/

theorem splitLines_line (l : Str) (r : Str) : ∀ (cur : Str), OneLine l → splitLines cur (l ++ '\n' :: r) = (cur ++ l) :: splitLines [] r := by
  induction l with
  | nil =>
    intro cur _
    rw [List.nil_append, List.append_nil, splitLines]
    · simp
    · intro r' h1
      cases h1
  | cons c l ih =>
    intro cur h
    have hn : c ≠ '\n' := by rintro rfl; exact h.1 List.mem_cons_self
    have hr : c ≠ '\r' := by rintro rfl; exact h.2 List.mem_cons_self
    have ih' := ih (cur ++ [c]) ⟨fun x => h.1 (List.mem_cons_of_mem _ x), fun x => h.2 (List.mem_cons_of_mem _ x)⟩
    rw [List.cons_append, splitLines]
    · rw [if_neg (by simp [hn, hr]), ih']
      simp
    · intro r' h1 h2
      exact hr h1

theorem splitLines_last (l : Str) : ∀ (cur : Str), OneLine l → splitLines cur l = if cur ++ l = [] then [] else [cur ++ l] := by
  induction l with
  | nil => intro cur _; simp [splitLines]
  | cons c l ih =>
    intro cur h
    have hn : c ≠ '\n' := by rintro rfl; exact h.1 List.mem_cons_self
    have hr : c ≠ '\r' := by rintro rfl; exact h.2 List.mem_cons_self
    have ih' := ih (cur ++ [c]) ⟨fun x => h.1 (List.mem_cons_of_mem _ x), fun x => h.2 (List.mem_cons_of_mem _ x)⟩
    rw [splitLines]
    · rw [if_neg (by simp [hn, hr]), ih']
      simp
    · intro r' h1 h2
      exact hr h1

theorem split_join (out : List Str) (h : ∀ l ∈ out, OneLine l) (h0 : out ≠ []) :
    splitLines [] (join ['\n'] out ++ ['\n']) = out ∧
    (splitLines [] (join ['\n'] out) = out ∨ ∃ a, out = a ++ [[]] ∧ splitLines [] (join ['\n'] out) = a) := by
  induction out with
  | nil => exact absurd rfl h0
  | cons l r ih =>
    have hl := h l List.mem_cons_self
    cases r with
    | nil =>
      refine ⟨?_, ?_⟩
      · have := splitLines_line l [] [] hl
        simpa [join, splitLines] using this
      · have := splitLines_last l [] hl
        by_cases he : l = []
        · right
          exact ⟨[], by simp [he], by simp [join, he, splitLines]⟩
        · left
          simpa [join, he] using this
    | cons m r =>
      obtain ⟨i1, i2⟩ := ih (fun x hx => h x (List.mem_cons_of_mem _ hx)) (by simp)
      have e : join ['\n'] (l :: m :: r) = l ++ '\n' :: join ['\n'] (m :: r) := rfl
      refine ⟨?_, ?_⟩
      · rw [e, List.append_assoc, List.cons_append, splitLines_line l _ [] hl, i1]
        rfl
      · rw [e, splitLines_line l _ [] hl]
        rcases i2 with i2 | ⟨a, ha, i2⟩
        · left; rw [i2]; rfl
        · right
          exact ⟨l :: a, by rw [ha]; rfl, by rw [i2]; rfl⟩

theorem split_textOf (out : List Str) (es : List (Str × Val)) (h : Lines out es) : Lines (splitLines [] (textOf out)) es := by
  have ho := lines_oneLine out es h
  unfold textOf
  by_cases h0 : out = []
  · subst h0
    cases h
    have : splitLines [] ['\n'] = [[]] := by decide
    simp only [join]
    simp only [List.getLast?_nil, reduceCtorEq, if_false, List.nil_append, this]
    exact .comment [] [] [] ⟨by simp [OneLine], rfl⟩ .nil
  · obtain ⟨h1, h2⟩ := split_join out ho h0
    simp only
    split
    · rcases h2 with h2 | ⟨a, ha, h2⟩
      · rw [h2]; exact h
      · rw [h2]
        rw [ha] at h
        exact lines_init a es h
    · rw [h1]; exact h

/-! ### Reading -/

structure PInv (s : PS) (es : List (Str × Val)) : Prop where
  errs : s.errs = 0
  odd : s.odd = false
  kv : kv s.doc = es
  cl : ∀ l ∈ s.cl, IsComment l
  initial : ∀ l ∈ s.doc.initial, IsComment l
  final : ∀ l ∈ s.doc.final, IsComment l
  comments : ∀ e ∈ s.doc.entries, ∀ l ∈ e.comments, IsComment l

theorem cur_ok (s : PS) (es : List (Str × Val)) (h : PInv s es) : ∀ l ∈ s.cur, IsComment l := by
  unfold PS.cur
  split
  · simp
  · exact h.cl

theorem begin_ok (s : PS) (es : List (Str × Val)) (h : PInv s es) : PInv s.begin es := by
  have hc := cur_ok s es h
  unfold PS.begin
  split
  · exact ⟨h.errs, h.odd, h.kv, hc, h.initial, h.final, h.comments⟩
  · exact ⟨h.errs, h.odd, h.kv, by simp, hc, h.final, h.comments⟩

theorem parse_lines (ls : List Str) (es : List (Str × Val)) (h : Lines ls es) : ∀ (s : PS) (es0 : List (Str × Val)), PInv s es0 →
    ((es0 ++ es).map Prod.fst).Nodup → PInv (ls.foldl stepLine s) (es0 ++ es) := by
  induction h with
  | nil => intro s es0 hs _; simpa using hs
  | comment l ls es hl _ ih =>
    intro s es0 hs hn
    rw [List.foldl_cons]
    refine ih _ es0 ?_ hn
    unfold stepLine
    rw [hl.2]
    refine ⟨hs.errs, hs.odd, hs.kv, ?_, hs.initial, hs.final, hs.comments⟩
    intro m hm
    rcases List.mem_append.1 hm with h1 | h1
    · exact cur_ok s es0 hs m h1
    · rw [List.mem_singleton.1 h1]; exact hl
  | entry l k v ls es hl h1 _ ih =>
    intro s es0 hs hn
    rw [List.foldl_cons, show es0 ++ (k, v) :: es = (es0 ++ [(k, v)]) ++ es by simp]
    refine ih _ (es0 ++ [(k, v)]) ?_ (by simpa using hn)
    unfold stepLine
    rw [hl]
    have hk : k ∉ s.doc.keys := by
      rw [keys_kv, hs.kv]
      intro hm
      rw [List.map_append, List.map_cons] at hn
      exact (List.nodup_append.1 hn).2.2 k hm k (by simp) rfl
    simp only [hk, if_false]
    have hb := begin_ok s es0 hs
    refine ⟨hb.errs, hb.odd, ?_, hb.cl, hb.initial, hb.final, ?_⟩
    · have := hb.kv
      simp only [Projects.kv] at this ⊢
      simp [this]
    · intro e he
      rcases List.mem_append.1 he with h2 | h2
      · exact hb.comments e h2
      · rw [List.mem_singleton.1 h2]; exact hb.cl

theorem finish_ok (s : PS) (es : List (Str × Val)) (h : PInv s es) : PInv (finish s) es := by
  unfold finish
  split
  · exact ⟨h.errs, h.odd, h.kv, h.cl, h.cl, h.final, h.comments⟩
  · split
    · exact h
    · exact ⟨h.errs, h.odd, h.kv, h.cl, h.initial, h.cl, h.comments⟩

theorem load_lines (t : Str) (es : List (Str × Val)) (h : Lines (splitLines [] t) es) (hn : (es.map Prod.fst).Nodup)
    (hg : ∀ e ∈ es, GoodKV e) : ∃ d, load (some t) = .obj d ∧ DocOk d ∧ kv d = es := by
  have h0 : PInv start [] := ⟨rfl, rfl, rfl, by simp [start], by simp [start], by simp [start], by simp [start]⟩
  have h1 := finish_ok _ _ (parse_lines _ _ h start [] h0 (by simpa using hn))
  rw [List.nil_append] at h1
  refine ⟨(parseLines (splitLines [] t)).doc, ?_, ⟨h1.initial, h1.final, h1.comments, ?_, ?_⟩, h1.kv⟩
  · unfold load
    simp only
    rw [show (parseLines (splitLines [] t)).odd = false from h1.odd, show (parseLines (splitLines [] t)).errs = 0 from h1.errs]
    rfl
  · intro e he
    exact hg e (by rw [← h1.kv]; exact he)
  · rw [keys_kv, show kv (parseLines (splitLines [] t)).doc = es from h1.kv]
    exact hn

/-- What is written is read back. -/
theorem write_load (d : Doc) (h : DocOk d) : ∃ t, write d = .ok t ∧ ∃ d', load (some t) = .obj d' ∧ DocOk d' ∧ kv d' = kv d := by
  obtain ⟨ls, h1, h2⟩ := entryLines_ok d.entries h.comments (by
    intro e he
    exact h.good (e.key, e.val) (List.mem_map.2 ⟨e, he, rfl⟩))
  refine ⟨textOf (d.initial ++ ls ++ d.final), by simp [write, h1], ?_⟩
  have hl : Lines (d.initial ++ ls ++ d.final) (kv d) := by
    have := lines_append _ _ _ _ (lines_append _ _ _ _ (lines_comments _ h.initial) h2) (lines_comments _ h.final)
    simpa [kv] using this
  exact load_lines _ _ (split_textOf _ _ hl) (by rw [← keys_kv]; exact h.nodup) h.good

/-! ### The operations -/

theorem kv_setVal (d : Doc) (k : Str) (v : Val) : ∀ m, (kv (setVal d k v)).lookup m = if m = k then some v else (kv d).lookup m := by
  intro m
  unfold setVal kv
  by_cases hk : k ∈ d.keys
  · rw [if_pos hk]
    simp only [List.map_map]
    unfold Doc.keys at hk
    generalize d.entries = es at hk ⊢
    induction es with
    | nil => simp at hk
    | cons e es ih =>
      simp only [List.map_cons, List.lookup_cons, Function.comp]
      by_cases he : e.key = k
      · subst he
        by_cases hm : m = e.key
        · subst hm; simp
        · have hb : (m == e.key) = false := by simpa using hm
          simp only [if_true, hb, hm, if_false]
          by_cases hk2 : e.key ∈ es.map Entry.key
          · rw [ih hk2, if_neg hm]
          · congr 1
            refine List.map_congr_left ?_
            intro x hx
            have : x.key ≠ e.key := fun h => hk2 (List.mem_map.2 ⟨x, hx, h⟩)
            simp [Function.comp, this]
      · have hk2 : k ∈ es.map Entry.key := by
          rcases List.mem_cons.1 hk with h | h
          · exact absurd h.symm he
          · exact h
        simp only [he, if_false]
        by_cases hm : m = e.key
        · subst hm
          simp [he]
        · have hb : (m == e.key) = false := by simpa using hm
          simp only [hb]
          exact ih hk2
  · rw [if_neg hk]
    simp only [List.map_append, List.map_cons, List.map_nil]
    unfold Doc.keys at hk
    generalize d.entries = es at hk ⊢
    induction es with
    | nil =>
      by_cases hm : m = k
      · simp [hm]
      · have hb : (m == k) = false := by simpa using hm
        simp [List.lookup_cons, hm, hb]
    | cons e es ih =>
      have he : k ≠ e.key := fun h => hk (by simp [h])
      have ih' := ih (fun h => hk (List.mem_cons_of_mem _ h))
      simp only [List.map_cons, List.cons_append, List.lookup_cons]
      by_cases hm : m = e.key
      · subst hm
        simp [Ne.symm he]
      · have hb : (m == e.key) = false := by simpa using hm
        simp only [hb]
        exact ih'

theorem keys_setVal (d : Doc) (k : Str) (v : Val) (h : d.keys.Nodup) : (setVal d k v).keys.Nodup := by
  unfold setVal
  by_cases hk : k ∈ d.keys
  · rw [if_pos hk]
    have : Doc.keys { d with entries := d.entries.map (fun e => if e.key = k then { e with val := v } else e) } = d.keys := by
      unfold Doc.keys
      rw [List.map_map]
      refine List.map_congr_left ?_
      intro e _
      simp only [Function.comp]
      split <;> rfl
    rw [this]
    exact h
  · rw [if_neg hk]
    unfold Doc.keys at hk ⊢
    simp only [List.map_append, List.map_cons, List.map_nil]
    exact List.nodup_append.2 ⟨h, by simp, by
      intro a ha b hb
      rw [List.mem_singleton.1 hb]
      rintro rfl
      exact hk ha⟩

theorem setVal_ok (d : Doc) (k : Str) (v : Val) (h : DocOk d) (hv : GoodKV (k, v)) : DocOk (setVal d k v) := by
  refine ⟨?_, ?_, ?_, ?_, keys_setVal d k v h.nodup⟩
  · unfold setVal; split <;> exact h.initial
  · unfold setVal; split <;> exact h.final
  · unfold setVal
    split
    · intro e he
      obtain ⟨x, hx, rfl⟩ := List.mem_map.1 he
      have := h.comments x hx
      split <;> exact this
    · intro e he
      rcases List.mem_append.1 he with h1 | h1
      · exact h.comments e h1
      · rw [List.mem_singleton.1 h1]; simp
  · intro e he
    have hkv : e = (k, v) ∨ e ∈ kv d := by
      unfold setVal kv at he
      split at he
      · obtain ⟨x, hx, rfl⟩ := List.mem_map.1 he
        obtain ⟨y, hy, rfl⟩ := List.mem_map.1 hx
        by_cases hyk : y.key = k
        · left; simp [hyk]
        · right
          simp only [hyk, if_false]
          exact List.mem_map.2 ⟨y, hy, rfl⟩
      · simp only [List.map_append, List.map_cons, List.map_nil] at he
        rcases List.mem_append.1 he with h1 | h1
        · right; exact h1
        · left; exact List.mem_singleton.1 h1
    rcases hkv with rfl | h1
    · exact hv
    · exact h.good e h1

theorem kv_delVal (d : Doc) (k : Str) (m : Str) : (kv (delVal d k)).lookup m = if m = k then none else (kv d).lookup m := by
  unfold delVal kv
  simp only
  generalize d.entries = es
  induction es with
  | nil => simp
  | cons e es ih =>
    rw [List.filter_cons]
    by_cases he : e.key = k
    · subst he
      simp only [ne_eq, not_true, decide_false, Bool.false_eq_true, if_false, List.map_cons, List.lookup_cons]
      rw [ih]
      by_cases hm : m = e.key
      · simp [hm]
      · have hb : (m == e.key) = false := by simpa using hm
        simp only [hm, if_false, hb]
    · simp only [ne_eq, he, not_false_eq_true, decide_true, if_true, List.map_cons, List.lookup_cons]
      by_cases hm : m = e.key
      · subst hm
        simp [he]
      · have hb : (m == e.key) = false := by simpa using hm
        simp only [hb]
        rw [ih]

theorem delVal_ok (d : Doc) (k : Str) (h : DocOk d) : DocOk (delVal d k) := by
  have hsub : (delVal d k).entries.Sublist d.entries := List.filter_sublist
  exact ⟨h.initial, h.final, fun e he => h.comments e (hsub.subset he),
    fun e he => h.good e ((hsub.map _).subset he), h.nodup.sublist (hsub.map _)⟩

theorem lookup_keys (d : Doc) (n : Str) : n ∈ d.keys ↔ (kv d).lookup n ≠ none := by
  rw [keys_kv]
  generalize kv d = es
  induction es with
  | nil => simp
  | cons e es ih =>
    obtain ⟨k, v⟩ := e
    rw [List.map_cons, List.mem_cons, List.lookup_cons]
    by_cases hm : n = k
    · simp [hm]
    · have hb : (n == k) = false := by simpa using hm
      simp only [hm, false_or, hb]
      exact ih

/-- The file and the registry it stands for. -/
def Stands (file : Option Str) (r : Reg) : Prop :=
  ∃ d, load file = .obj d ∧ DocOk d ∧ ∀ n, (kv d).lookup n = (r n).map (fun p => Val.list [p.1, p.2])

theorem stands_empty : Stands none (fun _ => none) :=
  ⟨⟨[], [], []⟩, rfl, ⟨by simp, by simp, by simp, by simp [kv], by simp [Doc.keys]⟩, by simp [kv]⟩

theorem accepted_iff (file : Option Str) (r : Reg) (op : Op) (h : Stands file r) (ho : OpOk op) :
    ((∃ t, newText file op = .ok t) ↔ Accepted r op) ∧
    (∀ t, newText file op = .ok t → ∃ d', DocOk d' ∧ write d' = .ok t ∧
      ∀ n, (kv d').lookup n = (effect r op n).map (fun p => Val.list [p.1, p.2])) := by
  obtain ⟨d, hl, hd, hk⟩ := h
  cases op with
  | add n a b =>
    simp only [newText, hl]
    have good : Accepted r (.add n a b) → GoodKV (n, .list [a, b]) := fun ha =>
      ⟨a, b, rfl, ho.1, ho.2.1, ho.2.2, ha.1, ha.2.1, ha.2.2⟩
    have hacc : (∃ t, write (setVal d n (.list [a, b])) = .ok t) → Accepted r (.add n a b) := by
      rintro ⟨t, ht⟩
      have : ∀ e ∈ (setVal d n (.list [a, b])).entries, ∃ l, entryLine e = .ok l := by
        unfold write at ht
        cases hls : entryLines (setVal d n (.list [a, b])).entries with
        | error e => rw [hls] at ht; cases ht
        | ok ls =>
          clear ht
          generalize (setVal d n (.list [a, b])).entries = es at hls
          induction es generalizing ls with
          | nil => simp
          | cons e es ih =>
            unfold entryLines at hls
            cases h1 : entryLine e with
            | error x => rw [h1] at hls; cases hls
            | ok l =>
              rw [h1] at hls
              simp only at hls
              cases h2 : entryLines es with
              | error x => rw [h2] at hls; cases hls
              | ok ls' =>
                intro e' he'
                rcases List.mem_cons.1 he' with rfl | he'
                · exact ⟨l, h1⟩
                · exact ih ls' h2 e' he'
      have hmem : ∃ e ∈ (setVal d n (.list [a, b])).entries, e.key = n ∧ e.val = .list [a, b] := by
        have := kv_setVal d n (.list [a, b]) n
        rw [if_pos rfl] at this
        have hm : (n, Val.list [a, b]) ∈ kv (setVal d n (.list [a, b])) := by
          generalize kv (setVal d n (.list [a, b])) = es at this
          induction es with
          | nil => simp at this
          | cons e es ih =>
            obtain ⟨k, v⟩ := e
            rw [List.lookup_cons] at this
            by_cases hnk : n = k
            · subst hnk
              simp at this
              rw [this]; simp
            · have hb : (n == k) = false := by simpa using hnk
              rw [hb] at this
              exact List.mem_cons_of_mem _ (ih this)
        obtain ⟨e, he, h2⟩ := List.mem_map.1 hm
        exact ⟨e, he, congrArg Prod.fst h2, congrArg Prod.snd h2⟩
      obtain ⟨e, he, e1, e2⟩ := hmem
      obtain ⟨l, hl'⟩ := this e he
      unfold entryLine at hl'
      rw [e1, e2] at hl'
      simp only [quoteVal, quoteAll] at hl'
      cases qa : quote a with
      | error x => rw [qa] at hl'; cases hl'
      | ok q1 =>
        cases qb : quote b with
        | error x => rw [qa, qb] at hl'; cases hl'
        | ok q2 =>
          cases qn : quote n with
          | error x => rw [qa, qb, qn] at hl'; cases hl'
          | ok q3 => exact ⟨(quote_ok_iff n).1 ⟨_, qn⟩, (quote_ok_iff a).1 ⟨_, qa⟩, (quote_ok_iff b).1 ⟨_, qb⟩⟩
    have main : Accepted r (.add n a b) → ∃ t, write (setVal d n (.list [a, b])) = .ok t ∧ ∃ d', DocOk d' ∧ write d' = .ok t ∧
        ∀ m, (kv d').lookup m = (effect r (.add n a b) m).map (fun p => Val.list [p.1, p.2]) := by
      intro ha
      have hok := setVal_ok d n _ hd (good ha)
      obtain ⟨t, ht, -⟩ := write_load _ hok
      refine ⟨t, ht, _, hok, ht, ?_⟩
      intro m
      rw [kv_setVal]
      unfold effect
      by_cases hm : m = n
      · simp [hm]
      · simp only [hm, if_false]
        exact hk m
    refine ⟨⟨hacc, fun ha => let ⟨t, ht, _⟩ := main ha; ⟨t, ht⟩⟩, ?_⟩
    intro t ht
    obtain ⟨t', ht', hs⟩ := main (hacc ⟨t, ht⟩)
    rw [ht] at ht'
    cases ht'
    exact hs
  | del n =>
    simp only [newText, hl]
    have hiff : n ∈ d.keys ↔ Accepted r (.del n) := by
      rw [lookup_keys, hk n]
      unfold Accepted
      cases hr : r n <;> simp [hr]
    have hok := delVal_ok d n hd
    obtain ⟨t, ht, -⟩ := write_load _ hok
    have hs : ∃ d', DocOk d' ∧ write d' = .ok t ∧
        ∀ m, (kv d').lookup m = (effect r (.del n) m).map (fun p => Val.list [p.1, p.2]) := by
      refine ⟨_, hok, ht, ?_⟩
      intro m
      rw [kv_delVal]
      unfold effect
      by_cases hm : m = n
      · simp [hm]
      · simp only [hm, if_false]
        exact hk m
    refine ⟨⟨?_, ?_⟩, ?_⟩
    · rintro ⟨t', h'⟩
      split at h'
      · next hm => exact hiff.1 hm
      · cases h'
    · intro ha
      rw [if_pos (hiff.2 ha)]
      exact ⟨t, ht⟩
    · intro t' h'
      split at h'
      · rw [ht] at h'
        cases h'
        exact hs
      · cases h'

theorem stands_step (file : Option Str) (r : Reg) (op : Op) (h : Stands file r) (ho : OpOk op) :
    Stands (step file op) (specStep r op) := by
  obtain ⟨h1, h2⟩ := accepted_iff file r op h ho
  unfold step specStep
  cases hn : newText file op with
  | error e =>
    rw [if_neg (fun ha => by obtain ⟨t, ht⟩ := h1.2 ha; rw [hn] at ht; cases ht)]
    exact h
  | ok t =>
    rw [if_pos (h1.1 ⟨t, hn⟩)]
    obtain ⟨d, hd, hw, hk⟩ := h2 t hn
    obtain ⟨t', ht', d', hl', hd', hkv'⟩ := write_load d hd
    rw [hw] at ht'
    cases ht'
    exact ⟨d', hl', hd', by rw [hkv']; exact hk⟩

theorem stands_history (ops : List Op) (ho : ∀ op ∈ ops, OpOk op) (file : Option Str) (r : Reg) (h : Stands file r) :
    Stands (ops.foldl step file) (ops.foldl specStep r) := by
  induction ops generalizing file r with
  | nil => exact h
  | cons op ops ih =>
    exact ih (fun o h' => ho o (List.mem_cons_of_mem _ h')) _ _ (stands_step file r op h (ho op List.mem_cons_self))

/-! ## Theorems (C125) -/

/-- **C125.** After any history of registrations and removals, `get_projects` succeeds and gives exactly the projects registered and not removed, each with the
directory and script file of its last registration; operations that are not accepted change nothing. -/
theorem projects_history (ops : List Op) (ho : ∀ op ∈ ops, OpOk op) :
    ∃ m, getProjects (ops.foldl step none) = .ok m ∧
      ∀ n, m.lookup n = (ops.foldl specStep (fun _ => none) n).map (fun p => Val.list [p.1, p.2]) := by
  obtain ⟨d, hl, -, hk⟩ := stands_history ops ho none _ stands_empty
  exact ⟨kv d, by simp [getProjects, hl], hk⟩

/-- **C125.** After any history, a registration is accepted exactly if its texts are storable, and a removal exactly if the name is registered. -/
theorem operations_accepted (ops : List Op) (ho : ∀ op ∈ ops, OpOk op) (op : Op) (h1 : OpOk op) :
    (∃ t, newText (ops.foldl step none) op = .ok t) ↔ Accepted (ops.foldl specStep (fun _ => none)) op :=
  (accepted_iff _ _ op (stands_history ops ho none _ stands_empty) h1).1

/-- Paths with commas, hashes, quotes and blanks are representable and storable. -/
example : OpOk (.add "my proj".toList "/home/a, b".toList "/home/a, b/it's #1.py".toList) ∧
    Accepted (fun _ => none) (.add "my proj".toList "/home/a, b".toList "/home/a, b/it's #1.py".toList) := by
  refine ⟨⟨⟨⟨⟨?_, ?_⟩, ?_⟩, ?_⟩, ⟨⟨?_, ?_⟩, ?_⟩, ⟨⟨?_, ?_⟩, ?_⟩⟩, ⟨?_, ?_⟩, ⟨?_, ?_⟩, ⟨?_, ?_⟩⟩ <;> decide

/-- **C125, limit.** A name with `=` is stored under another name with another directory: the project cannot be found, and the registry contains one that
nobody registered. -/
theorem equals_name_lost : getProjects (step none (.add "a=b".toList "/d".toList "/d/f.py".toList)) =
    .ok [("a".toList, .list ["b = /d".toList, "/d/f.py".toList])] := by decide +kernel

/-- **C125, limit.** A name that begins with `=` makes the whole registry unreadable: the one error in the file is swallowed by `get_config`, which returns None,
and every later call raises TypeError. -/
theorem equals_first_breaks : newText none (.add "=b".toList "/d".toList "/d/f.py".toList) = .ok "=b = /d, /d/f.py\n".toList ∧
    getProjects (step none (.add "=b".toList "/d".toList "/d/f.py".toList)) = .error .typeError := by
  constructor <;> decide +kernel

/-- ... and such a registry stays unreadable whatever is tried. -/
theorem stays_broken (file : Option Str) (h : getProjects file = .error .typeError) (ops : List Op) :
    ops.foldl step file = file ∧ getProjects (ops.foldl step file) = .error .typeError := by
  have hl : load file = .none := by
    unfold getProjects at h
    cases hx : load file with
    | obj d => rw [hx] at h; cases h
    | none => rfl
    | raised e =>
      rw [hx] at h
      simp only at h
      cases e <;> try cases h
      exfalso
      unfold load at hx
      cases file with
      | none => cases hx
      | some t =>
        simp only at hx
        split at hx
        · cases hx
        · split at hx
          · cases hx
          · split at hx <;> cases hx
  have : ops.foldl step file = file := by
    induction ops with
    | nil => rfl
    | cons op ops ih =>
      have hs : step file op = file := by
        unfold step newText
        cases op <;> simp [hl]
      rw [List.foldl_cons, hs]
      exact ih
  exact ⟨this, by rw [this]; exact h⟩

/-! ## Crashes (C126) -/

/-- The file while it is written (configobj.py 2110-2112): opening empties it, then the text arrives from the front. -/
def Crashed (t file : Str) : Prop := ∃ rest, t = file ++ rest

/-- **C126, limit.** Whatever was registered before, a crash while another project is added or removed can lose all projects: the empty file is one of the
possible files, and it is read without an error as an empty registry. -/
theorem crash_loses_all (ops : List Op) (op : Op) (t : Str) (_ : newText (ops.foldl step none) op = .ok t) :
    Crashed t [] ∧ getProjects (some []) = .ok [] :=
  ⟨⟨t, rfl⟩, by decide⟩

/-- **C126, limit.** A crash can also leave a wrong path without any error. -/
theorem crash_wrong_path : ∃ t file, newText none (.add "a".toList "/d".toList "/d/f.py".toList) = .ok t ∧ Crashed t file ∧
    getProjects (some file) = .ok [("a".toList, .list ["/d".toList, "/d/f".toList])] :=
  ⟨"a = /d, /d/f.py\n".toList, "a = /d, /d/f".toList, by decide +kernel, ⟨".py\n".toList, by decide⟩, by decide +kernel⟩

/-- The first `i` lines of a text of lines. -/
def firstLines (out : List Str) (i : Nat) : Str := ((out.take i).map (fun l => l ++ ['\n'])).flatten

theorem split_firstLines (ls : List Str) (h : ∀ l ∈ ls, OneLine l) : splitLines [] ((ls.map (fun l => l ++ ['\n'])).flatten) = ls := by
  induction ls with
  | nil => rfl
  | cons l ls ih =>
    rw [List.map_cons, List.flatten_cons, List.append_assoc, List.singleton_append, splitLines_line l _ [] (h l List.mem_cons_self),
      ih (fun m hm => h m (List.mem_cons_of_mem _ hm))]
    rfl

theorem lines_take (ls : List Str) (es : List (Str × Val)) (h : Lines ls es) : ∀ i, ∃ es' rest, es = es' ++ rest ∧ Lines (ls.take i) es' := by
  induction h with
  | nil => intro i; exact ⟨[], [], rfl, by simpa using Lines.nil⟩
  | comment l ls es hl r ih =>
    intro i
    cases i with
    | zero => exact ⟨[], es, rfl, .nil⟩
    | succ i =>
      obtain ⟨es', rest, h1, h2⟩ := ih i
      exact ⟨es', rest, h1, .comment l _ _ hl h2⟩
  | entry l k v ls es hl h1 r ih =>
    intro i
    cases i with
    | zero => exact ⟨[], _, rfl, .nil⟩
    | succ i =>
      obtain ⟨es', rest, h2, h3⟩ := ih i
      exact ⟨(k, v) :: es', rest, by rw [h2]; rfl, .entry l k v _ _ hl h1 h3⟩

theorem crash_doc (d : Doc) (h : DocOk d) : ∃ out, write d = .ok (textOf out) ∧
    ∀ i, ∃ m rest, getProjects (some (firstLines out i)) = .ok m ∧ kv d = m ++ rest := by
  obtain ⟨ls, h1, h2⟩ := entryLines_ok d.entries h.comments (by
    intro e he
    exact h.good (e.key, e.val) (List.mem_map.2 ⟨e, he, rfl⟩))
  refine ⟨d.initial ++ ls ++ d.final, by simp [write, h1], ?_⟩
  have hl : Lines (d.initial ++ ls ++ d.final) (kv d) := by
    have := lines_append _ _ _ _ (lines_append _ _ _ _ (lines_comments _ h.initial) h2) (lines_comments _ h.final)
    simpa [kv] using this
  intro i
  obtain ⟨es, rest, he, ht⟩ := lines_take _ _ hl i
  have hsp : Lines (splitLines [] (firstLines (d.initial ++ ls ++ d.final) i)) es := by
    unfold firstLines
    rw [split_firstLines _ (lines_oneLine _ _ ht)]
    exact ht
  have hn : ((kv d).map Prod.fst).Nodup := by rw [← keys_kv]; exact h.nodup
  rw [he, List.map_append] at hn
  obtain ⟨d', hd', -, hk⟩ := load_lines _ es hsp (List.nodup_append.1 hn).1 (fun e hx => h.good e (by rw [he]; exact List.mem_append_left _ hx))
  exact ⟨es, rest, by rw [getProjects, hd', ← hk], he⟩

theorem lookup_prefix (m rest : List (Str × Val)) (n : Str) (v : Val) (h : m.lookup n = some v) : (m ++ rest).lookup n = some v := by
  induction m with
  | nil => simp at h
  | cons e m ih =>
    obtain ⟨k, w⟩ := e
    rw [List.cons_append, List.lookup_cons]
    rw [List.lookup_cons] at h
    cases hb : (n == k) with
    | true => rw [hb] at h; exact h
    | false => rw [hb] at h; exact ih h

/-- **C126.** If the crash happens between two lines of the new file, whatever the history, what remains is read without error and every project found has the
directory and script file that it has in the new registry. -/
theorem crash_between_lines (ops : List Op) (ho : ∀ o ∈ ops, OpOk o) (op : Op) (h1 : OpOk op) (t : Str)
    (ht : newText (ops.foldl step none) op = .ok t) : ∃ out, t = textOf out ∧
    ∀ i, ∃ m, getProjects (some (firstLines out i)) = .ok m ∧
      ∀ n v, m.lookup n = some v → ∃ p, effect (ops.foldl specStep (fun _ => none)) op n = some p ∧ v = .list [p.1, p.2] := by
  obtain ⟨d, hd, hw, hk⟩ := (accepted_iff _ _ op (stands_history ops ho none _ stands_empty) h1).2 t ht
  obtain ⟨out, hout, hc⟩ := crash_doc d hd
  rw [hw] at hout
  refine ⟨out, by cases hout; rfl, ?_⟩
  intro i
  obtain ⟨m, rest, hm, he⟩ := hc i
  refine ⟨m, hm, ?_⟩
  intro n v hv
  have := lookup_prefix m rest n v hv
  rw [← he, hk] at this
  cases hx : effect (ops.foldl specStep (fun _ => none)) op n with
  | none => rw [hx] at this; cases this
  | some p => rw [hx] at this; exact ⟨p, rfl, (Option.some.inj this).symm⟩

end Verif.Projects
