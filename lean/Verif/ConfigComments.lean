import Mathlib.Data.List.Induction
import Verif.Projects
import Verif.ProjectDirs
/-!
# C125, C127: nothing in a registry file is dropped in silence; relative paths
-/
namespace Verif.ConfigComments
open Verif.ConfigFile Verif.Projects

/-- the entry a line stands for -/
def entOf (l : Str) : Option (Str × Val) :=
  match classify l with
  | .entry k v => some (k, v)
  | _ => none

/-- blank lines and lines beginning with # -/
def isCom (l : Str) : Bool := decide (lstrip l = [] ∨ (lstrip l).head? = some '#')

theorem isCom_iff (l : Str) : isCom l = true ↔ classify l = .comment := by
  rw [classify_comment]; simp [isCom]

/-- everything kept as comments, in order -/
def coms (d : Doc) : List Str := d.initial ++ d.entries.flatMap Entry.comments ++ d.final

structure Inv (ls : List Str) (s : PS) : Prop where
  fin : s.doc.final = []
  kv : kv s.doc = ls.filterMap entOf
  good : ∀ l ∈ ls, classify l ≠ .bad ∧ classify l ≠ .other
  nodup : s.doc.keys.Nodup
  coms : s.doc.initial ++ s.doc.entries.flatMap Entry.comments ++ s.cur = ls.filter isCom
  fresh : s.started = false → s.doc.entries = [] ∧ s.doc.initial = [] ∧ s.reset = false
  begun : s.started = true → s.doc.entries ≠ []

theorem step_errs (s : PS) (l : Str) : (stepLine s l).errs = 0 → (stepLine s l).odd = false → s.errs = 0 ∧ s.odd = false := by
  have hb : s.begin.errs = s.errs ∧ s.begin.odd = s.odd := by unfold PS.begin; split <;> exact ⟨rfl, rfl⟩
  unfold stepLine
  split
  · exact fun h1 h2 => ⟨h1, h2⟩
  · intro h1; simp at h1
  · intro _ h2; simp at h2
  · split
    · intro h1; simp at h1
    · intro h1 h2
      exact ⟨hb.1 ▸ h1, hb.2 ▸ h2⟩

theorem inv_step (ls : List Str) (s : PS) (l : Str) (h : Inv ls s) (he : (stepLine s l).errs = 0)
    (ho : (stepLine s l).odd = false) : Inv (ls ++ [l]) (stepLine s l) := by
  unfold stepLine at he ho ⊢
  cases hc : classify l with
  | comment =>
    rw [hc] at he ho
    simp only at he ho ⊢
    have hcom : isCom l = true := (isCom_iff l).2 hc
    have hent : entOf l = none := by unfold entOf; rw [hc]
    refine ⟨h.fin, by simp [hent, h.kv], ?_, h.nodup, ?_, ?_, h.begun⟩
    · intro m hm
      rcases List.mem_append.1 hm with hm | hm
      · exact h.good m hm
      · rw [List.mem_singleton.1 hm, hc]; simp
    · have : PS.cur { s with cl := s.cur ++ [l], reset := false } = s.cur ++ [l] := rfl
      rw [this, ← List.append_assoc]
      show s.doc.initial ++ s.doc.entries.flatMap Entry.comments ++ s.cur ++ [l] = _
      rw [h.coms]
      simp [hcom]
    · intro hs
      obtain ⟨h1, h2, _⟩ := h.fresh hs
      exact ⟨h1, h2, rfl⟩
  | bad => rw [hc] at he; simp at he
  | other => rw [hc] at ho; simp at ho
  | entry k v =>
    rw [hc] at he ho
    simp only at he ho ⊢
    by_cases hk : k ∈ s.doc.keys
    · rw [if_pos hk] at he; simp at he
    · rw [if_neg hk]
      have hncom : isCom l = false := by
        cases hx : isCom l with
        | false => rfl
        | true => rw [isCom_iff, hc] at hx; cases hx
      have hent : entOf l = some (k, v) := by unfold entOf; rw [hc]
      have bkv : s.begin.doc.entries = s.doc.entries ∧ s.begin.doc.final = s.doc.final := by
        unfold PS.begin; split <;> exact ⟨rfl, rfl⟩
      have bcom : s.begin.doc.initial ++ s.doc.entries.flatMap Entry.comments ++ s.begin.cl
          = s.doc.initial ++ s.doc.entries.flatMap Entry.comments ++ s.cur := by
        unfold PS.begin
        split
        · rfl
        · next hs =>
          obtain ⟨h1, h2, _⟩ := h.fresh (by simpa using hs)
          simp [h1, h2]
      refine ⟨by show s.begin.doc.final = []; rw [bkv.2]; exact h.fin, ?_, ?_, ?_, ?_, ?_, ?_⟩
      · have := h.kv
        simp only [Projects.kv] at this ⊢
        simp [bkv.1, this, hent]
      · intro m hm
        rcases List.mem_append.1 hm with hm | hm
        · exact h.good m hm
        · rw [List.mem_singleton.1 hm, hc]; simp
      · show ((s.begin.doc.entries ++ [_]).map Entry.key).Nodup
        rw [bkv.1, List.map_append, List.nodup_append]
        refine ⟨h.nodup, by simp, ?_⟩
        intro a ha b hb hab
        simp only [List.map_cons, List.map_nil, List.mem_singleton] at hb
        exact hk (by rw [← hb, ← hab]; exact ha)
      · have hr : PS.cur { s.begin with doc := { s.begin.doc with entries := s.begin.doc.entries ++ [⟨s.begin.cl, k, v⟩] } } = [] := by
          have : s.begin.reset = true := by unfold PS.begin; split <;> rfl
          simp [PS.cur, this]
        rw [hr]
        simp only [bkv.1, List.flatMap_append, List.flatMap_cons, List.flatMap_nil, List.append_nil]
        rw [← List.append_assoc, bcom, h.coms]
        simp [hncom]
      · have : s.begin.started = true := by unfold PS.begin; split <;> simp_all
        intro hs
        simp only at hs
        rw [this] at hs; cases hs
      · intro _; simp

theorem inv_fold (ls : List Str) : (ls.foldl stepLine start).errs = 0 → (ls.foldl stepLine start).odd = false →
    Inv ls (ls.foldl stepLine start) := by
  induction ls using List.reverseRecOn with
  | nil =>
    intro _ _
    exact ⟨rfl, rfl, by simp, by simp [start, Doc.keys], rfl, fun _ => ⟨rfl, rfl, rfl⟩, fun h => by cases h⟩
  | append_singleton ls l ih =>
    intro he ho
    rw [List.foldl_append] at he ho ⊢
    simp only [List.foldl_cons, List.foldl_nil] at he ho ⊢
    obtain ⟨h1, h2⟩ := step_errs _ _ he ho
    exact inv_step ls _ l (ih h1 h2) he ho

/-- **C125** If the registry file can be read at all, every line is accounted for: the entries are exactly the entry
lines (so a name given twice is refused), every other line is a comment and kept, in order. -/
theorem every_line_kept (t : Str) (d : Doc) (h : load (some t) = .obj d) :
    kv d = (splitLines [] t).filterMap entOf ∧ ((splitLines [] t).filterMap entOf |>.map Prod.fst).Nodup ∧
    (∀ l ∈ splitLines [] t, isCom l = true ∨ (entOf l).isSome = true) ∧
    coms d = (splitLines [] t).filter isCom := by
  unfold load at h
  simp only at h
  split at h
  · cases h
  · next ho =>
    split at h
    · next he =>
      cases h
      have e : ∀ s : PS, (finish s).errs = s.errs ∧ (finish s).odd = s.odd ∧ kv (finish s).doc = kv s.doc := by
        intro s; unfold finish; split
        · exact ⟨rfl, rfl, rfl⟩
        · split <;> exact ⟨rfl, rfl, rfl⟩
      unfold parseLines at he ho ⊢
      generalize splitLines [] t = ls at *
      have i := inv_fold ls ((e _).1 ▸ he) ((e _).2.1 ▸ (by simpa using ho))
      generalize ls.foldl stepLine start = s at *
      refine ⟨by rw [(e s).2.2, i.kv], ?_, ?_, ?_⟩
      · rw [← i.kv, ← keys_kv]; exact i.nodup
      · intro l hl
        have hg := i.good l hl
        cases hc : classify l with
        | comment => exact Or.inl ((isCom_iff l).2 hc)
        | bad => exact absurd hc hg.1
        | other => exact absurd hc hg.2
        | entry k v => exact Or.inr (by unfold entOf; rw [hc]; rfl)
      · rw [← i.coms]
        unfold finish coms
        split
        · next h0 =>
          have hs : s.started = false := by
            cases hs : s.started with
            | false => rfl
            | true => exact absurd h0.1 (i.begun hs)
          have hr := (i.fresh hs).2.2
          simp [h0.1, h0.2, i.fin, PS.cur, hr]
        · split
          · next hr => simp [i.fin, PS.cur, hr]
          · next hr => simp [PS.cur, hr]
    · split at h <;> cases h

/-- a name given twice makes the whole file unreadable -/
theorem duplicate_refused (t : Str) (k : Str) (v w : Val) (a b c : List Str) (l m : Str)
    (ht : splitLines [] t = a ++ l :: (b ++ m :: c)) (hl : classify l = .entry k v) (hm : classify m = .entry k w) (d : Doc) :
    load (some t) ≠ .obj d := by
  intro h
  have h1 := (every_line_kept t d h).2.1
  rw [ht] at h1
  have e1 : entOf l = some (k, v) := by unfold entOf; rw [hl]
  have e2 : entOf m = some (k, w) := by unfold entOf; rw [hm]
  simp only [List.filterMap_append, List.filterMap_cons, e1, e2, List.map_append, List.map_cons] at h1
  have h2 := (List.nodup_append.mp h1).2.1
  rw [List.nodup_cons] at h2
  exact h2.1 (by simp)

/-- components that stand for themselves -/
def Plain (p : List Str) : Prop := ∀ c ∈ p, c ≠ [] ∧ c ≠ ['.'] ∧ c ≠ ['.', '.'] ∧ '/' ∉ c

/-! ## Comments survive the program -/

/-- the lines beginning with #, without the blanks before it -/
def hashLines (t : Str) : List Str := ((splitLines [] t).map lstrip).filter (fun l => decide (l.head? = some '#'))

def hashes (l : List Str) : List Str := (l.map lstrip).filter (fun l => decide (l.head? = some '#'))

theorem hashes_append (a b : List Str) : hashes (a ++ b) = hashes a ++ hashes b := by simp [hashes]

theorem hashes_lstrip (a : List Str) : hashes (a.map lstrip) = hashes a := by
  simp [hashes, List.map_map, Function.comp_def, lstrip_lstrip]

theorem hashes_com (ls : List Str) : hashes (ls.filter isCom) = hashes ls := by
  induction ls with
  | nil => rfl
  | cons l ls ih =>
    have e : ∀ x xs, hashes (x :: xs) = hashes [x] ++ hashes xs := fun x xs => hashes_append [x] xs
    by_cases h : isCom l = true
    · rw [List.filter_cons_of_pos h, e, e l ls, ih]
    · rw [List.filter_cons_of_neg h, ih, e]
      have : hashes [l] = [] := by
        have : ¬ (lstrip l).head? = some '#' := fun hc => h (by simp [isCom, hc])
        simp [hashes, this]
      simp [this]

theorem hashes_entry (l k : Str) (v : Val) (h : classify l = .entry k v) : hashes [l] = [] := by
  have : ¬ (lstrip l).head? = some '#' := by
    intro hc
    rw [(classify_comment l).2 (Or.inr hc)] at h; cases h
  simp [hashes, this]

theorem hashes_lines (ls : List Str) (es : List (Str × Val)) (h : Lines ls es) : hashes ls = hashes (ls.filter isCom) :=
  (hashes_com ls).symm

theorem entryLines_hashes : ∀ (es : List Entry) (ls : List Str), (∀ e ∈ es, GoodKV (e.key, e.val)) →
    entryLines es = .ok ls → hashes ls = hashes (es.flatMap Entry.comments)
  | [], ls, _, h => by simp only [entryLines, Except.ok.injEq] at h; subst h; rfl
  | e :: es, ls, hg, h => by
    obtain ⟨l, h1, h2, h3⟩ := entryLine_ok e (hg e List.mem_cons_self)
    unfold entryLines at h
    rw [h1] at h
    simp only at h
    cases hr : entryLines es with
    | error x => rw [hr] at h; cases h
    | ok ms =>
      rw [hr] at h
      simp only [Except.ok.injEq] at h
      subst h
      have ih := entryLines_hashes es ms (fun e he => hg e (List.mem_cons_of_mem _ he)) hr
      rw [hashes_append, hashes_lstrip, List.flatMap_cons, hashes_append,
        show l :: ms = [l] ++ ms from rfl, hashes_append, ih]
      rw [show hashes [l] = [] from hashes_entry l _ _ (by first | exact h2 | exact h3)]
      rfl

theorem hashes_textOf (out : List Str) (h : ∀ l ∈ out, OneLine l) : hashes (splitLines [] (textOf out)) = hashes out := by
  unfold textOf
  by_cases h0 : out = []
  · subst h0
    decide
  · obtain ⟨h1, h2⟩ := split_join out h h0
    simp only
    split
    · rcases h2 with h2 | ⟨a, ha, h2⟩
      · rw [h2]
      · rw [h2, ha, hashes_append]
        rw [show hashes [[]] = [] by decide]
        simp
    · rw [h1]

theorem setVal_comments (d : Doc) (k : Str) (v : Val) :
    (setVal d k v).entries.flatMap Entry.comments = d.entries.flatMap Entry.comments ∧
    (setVal d k v).initial = d.initial ∧ (setVal d k v).final = d.final := by
  unfold setVal
  split
  · refine ⟨?_, rfl, rfl⟩
    simp only [List.flatMap_map]
    congr 1
    funext e
    split <;> rfl
  · exact ⟨by simp, rfl, rfl⟩

/-- **C125** Comments written into the registry file by hand survive the registration of projects (removing a project
removes the comments above its line). -/
theorem comments_survive_add (t : Str) (d : Doc) (hd : DocOk d) (hl : load (some t) = .obj d) (n dir f : Str)
    (ho : OpOk (.add n dir f)) (ha : Storable n ∧ Storable dir ∧ Storable f) :
    ∃ t', newText (some t) (.add n dir f) = .ok t' ∧ hashLines t' = hashLines t := by
  have hok : DocOk (setVal d n (.list [dir, f])) :=
    setVal_ok d n _ hd ⟨dir, f, rfl, ho.1, ho.2.1, ho.2.2, ha.1, ha.2.1, ha.2.2⟩
  have hgood : ∀ e ∈ (setVal d n (.list [dir, f])).entries, GoodKV (e.key, e.val) := fun e he =>
    hok.good (e.key, e.val) (List.mem_map.2 ⟨e, he, rfl⟩)
  obtain ⟨ls, h1, h2⟩ := entryLines_ok _ hok.comments hgood
  refine ⟨textOf ((setVal d n (.list [dir, f])).initial ++ ls ++ (setVal d n (.list [dir, f])).final), ?_, ?_⟩
  · unfold newText
    rw [hl]
    simp [write, h1]
  · have hlines := lines_append _ _ _ _ (lines_append _ _ _ _ (lines_comments _ hok.initial) h2) (lines_comments _ hok.final)
    show hashes (splitLines [] (textOf _)) = hashes (splitLines [] t)
    rw [hashes_textOf _ (lines_oneLine _ _ hlines)]
    obtain ⟨c1, c2, c3⟩ := setVal_comments d n (.list [dir, f])
    rw [hashes_append, hashes_append, entryLines_hashes _ _ hgood h1, c1, c2, c3, ← hashes_append, ← hashes_append]
    have := (every_line_kept t d hl).2.2.2
    unfold coms at this
    rw [this, hashes_com]

instance (v : Str) : Decidable (OneLine v) := by unfold OneLine; infer_instance
instance (v : Str) : Decidable (Clean v) := by unfold Clean; infer_instance
instance (v : Str) : Decidable (NameOk v) := by unfold NameOk; infer_instance
instance (v : Str) : Decidable (Storable v) := by unfold Storable; infer_instance
instance (p : List Str) : Decidable (Plain p) := by unfold Plain; infer_instance

/-- a registry with two comments -/
example : ∃ d, load (some "# mine\na = /d, /d/f.py\n  # end\n".toList) = .obj d ∧ DocOk d ∧
    hashLines "# mine\na = /d, /d/f.py\n  # end\n".toList = ["# mine".toList, "# end".toList] := by
  obtain ⟨d, h1, h2, _⟩ := load_lines "# mine\na = /d, /d/f.py\n  # end\n".toList [("a".toList, .list ["/d".toList, "/d/f.py".toList])]
    (by
      have e : splitLines [] "# mine\na = /d, /d/f.py\n  # end\n".toList = ["# mine".toList, "a = /d, /d/f.py".toList, "  # end".toList] := by decide +kernel
      rw [e]
      exact .comment _ _ _ ⟨by decide, by decide +kernel⟩ (.entry _ _ _ _ _ (by decide +kernel) (by decide)
        (.comment _ _ _ ⟨by decide, by decide +kernel⟩ .nil)))
    (by simp) (by
      intro e he
      simp only [List.mem_singleton] at he
      subst he
      exact ⟨_, _, rfl, by decide +kernel, by decide +kernel, by decide +kernel, by decide +kernel, by decide +kernel, by decide +kernel⟩)
  exact ⟨d, h1, h2, by decide +kernel⟩

/-! ## Paths -/
open Verif.ProjectDirs (absJoin normAux splitSlash render)

/-- **C127** `..` leads to the directory above, `.` and doubled slashes mean nothing, an absolute path is taken as it is. -/
theorem relative_paths (base : List Str) (c s : Str) (hs : s.head? ≠ some '/') :
    absJoin (base ++ [c]) ('.' :: '.' :: '/' :: s) = absJoin base s ∧
    absJoin base ('.' :: '/' :: s) = absJoin base s ∧
    absJoin base ('.' :: '/' :: '/' :: s) = absJoin base s ∧
    absJoin [] ('.' :: '.' :: '/' :: s) = absJoin [] s ∧
    absJoin base ('/' :: s) = absJoin [] s := by
  have e : absJoin base s = normAux base (splitSlash [] s) := by unfold absJoin; rw [if_neg hs]
  have e0 : absJoin [] s = normAux [] (splitSlash [] s) := by unfold absJoin; rw [if_neg hs]
  refine ⟨?_, ?_, ?_, ?_, ?_⟩
  · rw [e]; simp [absJoin, splitSlash, normAux]
  · rw [e]; simp [absJoin, splitSlash, normAux]
  · rw [e]; simp [absJoin, splitSlash, normAux]
  · rw [e0]; simp [absJoin, splitSlash, normAux]
  · rw [e0]; simp [absJoin, splitSlash, normAux]

theorem splitSlash_seg (c r : Str) (h : '/' ∉ c) : ∀ cur, splitSlash cur (c ++ '/' :: r) = (cur ++ c) :: splitSlash [] r := by
  induction c with
  | nil => intro cur; simp [splitSlash]
  | cons x c ih =>
    intro cur
    simp only [List.mem_cons, not_or] at h
    rw [List.cons_append]
    rw [show splitSlash cur (x :: (c ++ '/' :: r)) = if x = '/' then cur :: splitSlash [] (c ++ '/' :: r)
      else splitSlash (cur ++ [x]) (c ++ '/' :: r) from rfl]
    rw [if_neg (fun e => h.1 e.symm), ih h.2]
    simp

theorem splitSlash_last (c : Str) (h : '/' ∉ c) : ∀ cur, splitSlash cur c = [cur ++ c] := by
  induction c with
  | nil => intro cur; simp [splitSlash]
  | cons x c ih =>
    intro cur
    simp only [List.mem_cons, not_or] at h
    unfold splitSlash
    rw [if_neg (fun e => h.1 e.symm), ih h.2]
    simp

theorem split_render : ∀ (p : List Str), Plain p → p ≠ [] → splitSlash [] ((p.map (fun c => '/' :: c)).flatten) = [] :: p
  | [c], h, _ => by
    have := h c (by simp)
    simp [splitSlash, splitSlash_last c this.2.2.2]
  | c :: d :: p, h, _ => by
    have hc := h c (by simp)
    have ih := split_render (d :: p) (fun x hx => h x (by simp [hx])) (by simp)
    simp only [List.map_cons, List.flatten_cons, List.cons_append] at ih ⊢
    rw [show splitSlash [] ('/' :: (c ++ '/' :: (d ++ (p.map (fun c => '/' :: c)).flatten)))
      = [] :: splitSlash [] (c ++ '/' :: (d ++ (p.map (fun c => '/' :: c)).flatten)) by
        simp [splitSlash]]
    rw [splitSlash_seg c _ hc.2.2.2]
    have : splitSlash [] ('/' :: (d ++ (p.map (fun c => '/' :: c)).flatten))
        = [] :: splitSlash [] (d ++ (p.map (fun c => '/' :: c)).flatten) := by simp [splitSlash]
    rw [this] at ih
    simp only [List.cons.injEq, true_and] at ih
    rw [ih]; simp

theorem norm_plain : ∀ (p acc : List Str), Plain p → normAux acc p = acc ++ p
  | [], acc, _ => by simp [normAux]
  | c :: p, acc, h => by
    have hc := h c (by simp)
    unfold normAux
    rw [if_neg (by simp [hc.1, hc.2.1]), if_neg hc.2.2.1, norm_plain p _ (fun x hx => h x (by simp [hx]))]
    simp

/-- the text registered for a path denotes that path, from wherever it is used -/
theorem registered_text_denotes (base p : List Str) (h : Plain p) : absJoin base (render p) = p := by
  unfold render
  by_cases h0 : p = []
  · subst h0
    rw [if_pos rfl]
    simp [absJoin, splitSlash, normAux]
  · rw [if_neg h0]
    have hh : ((p.map (fun c => '/' :: c)).flatten).head? = some '/' := by
      cases p with
      | nil => exact absurd rfl h0
      | cons c p => simp
    unfold absJoin
    rw [if_pos hh, split_render p h h0]
    have : normAux [] ([] :: p) = normAux [] p := by simp [normAux]
    rw [this, norm_plain p [] h]
    simp

theorem norm_isPlain : ∀ (l acc : List Str), (∀ c ∈ l, '/' ∉ c) → Plain acc → Plain (normAux acc l)
  | [], acc, _, h => h
  | c :: l, acc, hl, h => by
    have hl' : ∀ c ∈ l, '/' ∉ c := fun x hx => hl x (by simp [hx])
    unfold normAux
    split
    · exact norm_isPlain l acc hl' h
    · next h1 =>
      split
      · exact norm_isPlain l _ hl' (fun x hx => h x (List.dropLast_subset _ hx))
      · next h2 =>
        refine norm_isPlain l _ hl' (fun x hx => ?_)
        rcases List.mem_append.1 hx with hx | hx
        · exact h x hx
        · rw [List.mem_singleton.1 hx]
          simp only [not_or] at h1
          exact ⟨h1.1, h1.2, h2, hl c (by simp)⟩

theorem splitSlash_noslash : ∀ (s cur : Str), '/' ∉ cur → ∀ c ∈ splitSlash cur s, '/' ∉ c
  | [], cur, h, c, hc => by simp only [splitSlash, List.mem_singleton] at hc; rw [hc]; exact h
  | x :: s, cur, h, c, hc => by
    unfold splitSlash at hc
    split at hc
    · rcases List.mem_cons.1 hc with rfl | hc
      · exact h
      · exact splitSlash_noslash s [] (by simp) c hc
    · next hx =>
      exact splitSlash_noslash s _ (by simp [h]; exact fun e => hx e.symm) c hc

/-- paths are registered in plain form -/
theorem registered_plain (base : List Str) (hb : Plain base) (s : Str) : Plain (absJoin base s) := by
  unfold absJoin
  split
  · exact norm_isPlain _ _ (fun c hc => splitSlash_noslash s [] (by simp) c hc) (by simp [Plain])
  · exact norm_isPlain _ _ (fun c hc => splitSlash_noslash s [] (by simp) c hc) hb

example : absJoin ["home".toList, "me".toList] "../you/./x".toList = ["home".toList, "you".toList, "x".toList] ∧
    Plain ["home".toList, "me".toList] := by decide +kernel

end Verif.ConfigComments
