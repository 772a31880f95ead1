import Mathlib.Data.List.Basic
import Mathlib.Data.List.Nodup
import Mathlib.Tactic.SplitIfs
import Mathlib.Tactic.Linarith

/-!
# Sections in configuration files (astropysics/external/configobj.py 1534-1690, 1701-1735, 2040-2066) (C192)

`_parse` and `write` on lines that are section markers `[[name]]` of some depth, settings, markers with different numbers of brackets, and lines that are neither (what a line is: ConfigFile.lean,
ConfigMarker.lean).  `raise_errors=True`: the first error is raised.  The configuration that was read is the list of its sections and settings with their full names in the order of the file.
-/

namespace Verif.ConfigTree

inductive Err
  | nesting
  | duplicate
  | parse
  /-- UnboundLocalError -/
  | unbound
  /-- ConfigObjError at the end of the file -/
  | config
  deriving DecidableEq

/-- A line. -/
inductive Tok (V : Type)
  | marker (depth : ℕ) (name : String)
  | setting (key : String) (v : V)
  | unbalanced
  | junk

/-- Names of the sections from the outermost. -/
abbrev Path := List String

/-- What was read. -/
inductive Entry (V : Type)
  | sect (p : Path)
  | set (p : Path) (key : String) (v : V)

/-- The full name. -/
def Entry.full {V : Type} : Entry V → Path
  | .sect p => p
  | .set p k _ => p ++ [k]

variable {V : Type}

/-- `name in section`. -/
def named (es : List (Entry V)) (p : Path) (n : String) : Bool := es.any fun e => e.full = p ++ [n]

/-- The section that a marker belongs to, configobj.py 1574-1593; `cur` is the current section (its depth is the number of its names). -/
def parentOf (cur : Path) (depth : ℕ) : Option Path :=
  if depth < cur.length then some (cur.take (depth - 1))
  else if depth = cur.length then some cur.dropLast
  else if depth = cur.length + 1 then some cur
  else none

/-- `_parse` with `raise_errors=True`, configobj.py 1534-1690. -/
def parseFrom (es : List (Entry V)) (cur : Path) : List (Tok V) → Except Err (List (Entry V))
  | [] => .ok es
  | .unbalanced :: _ => .error .nesting
  | .junk :: _ => .error .parse
  | .marker d n :: r =>
    match parentOf cur d with
    | none => .error .nesting
    | some parent => if named es parent n then .error .duplicate else parseFrom (es ++ [.sect (parent ++ [n])]) (parent ++ [n]) r
  | .setting k v :: r => if named es cur k then .error .duplicate else parseFrom (es ++ [.set cur k v]) cur r

def parse (l : List (Tok V)) : Except Err (List (Entry V)) := parseFrom [] [] l

/-- The depth of the first balanced marker. -/
def firstDepth : List (Tok V) → Option ℕ
  | [] => none
  | .marker d _ :: _ => some d
  | _ :: r => firstDepth r

/-- Loading, configobj.py 1306-1325: without `raise_errors` there is one error at the end if there was any; but a section that is too deep goes on with the variable `parent` (line 1591-1594 has no
`continue`), which does not exist yet at the first marker. -/
def load (raiseErrors : Bool) (l : List (Tok V)) : Except Err (List (Entry V)) :=
  if raiseErrors then parse l
  else match firstDepth l with
    | some (_ + 2) => .error .unbound
    | _ => match parse l with
      | .ok es => .ok es
      | .error _ => .error .config

mutual
/-- A section: settings and sections in their order. -/
inductive Sect (V : Type)
  | mk (scalars : List (String × V)) (subs : Subs V)
inductive Subs (V : Type)
  | nil
  | cons (n : String) (s : Sect V) (r : Subs V)
end

mutual
/-- `write`, configobj.py 2040-2066: settings, then every section with its marker. -/
def write (depth : ℕ) : Sect V → List (Tok V)
  | .mk sc subs => sc.map (fun p => .setting p.1 p.2) ++ writeSubs depth subs
def writeSubs (depth : ℕ) : Subs V → List (Tok V)
  | .nil => []
  | .cons n s r => .marker (depth + 1) n :: write (depth + 1) s ++ writeSubs depth r
end

/-! ## Specification -/

mutual
/-- The sections and settings of a tree with their full names. -/
def entries (p : Path) : Sect V → List (Entry V)
  | .mk sc subs => sc.map (fun q => .set p q.1 q.2) ++ entriesSubs p subs
def entriesSubs (p : Path) : Subs V → List (Entry V)
  | .nil => []
  | .cons n s r => .sect (p ++ [n]) :: entries (p ++ [n]) s ++ entriesSubs p r
end

def Subs.names : Subs V → List String
  | .nil => []
  | .cons n _ r => n :: r.names

mutual
/-- A section is a dictionary: its settings and sections have different names. -/
def Valid : Sect V → Prop
  | .mk sc subs => (sc.map (·.1) ++ subs.names).Nodup ∧ ValidSubs subs
def ValidSubs : Subs V → Prop
  | .nil => True
  | .cons _ s r => Valid s ∧ ValidSubs r
end

/-- Where everything belongs: a marker of depth d opens a section in the d - 1 outer sections of the current one; a setting is in the current one. -/
def locate (cur : Path) : List (Tok V) → List (Entry V)
  | [] => []
  | .marker d n :: r => .sect (cur.take (d - 1) ++ [n]) :: locate (cur.take (d - 1) ++ [n]) r
  | .setting k v :: r => .set cur k v :: locate cur r
  | _ :: r => locate cur r

/-- Markers are balanced, each at most one deeper than the one before. -/
def Steps (depth : ℕ) : List (Tok V) → Prop
  | [] => True
  | .marker d _ :: r => 1 ≤ d ∧ d ≤ depth + 1 ∧ Steps d r
  | .setting _ _ :: r => Steps depth r
  | _ :: _ => False

/-- Every marker has a bracket. -/
def Brackets : List (Tok V) → Prop
  | [] => True
  | .marker d _ :: r => 1 ≤ d ∧ Brackets r
  | _ :: r => Brackets r

/-! ## Proofs -/

theorem parent_take (cur : Path) (d : ℕ) (h1 : 1 ≤ d) : parentOf cur d = if d ≤ cur.length + 1 then some (cur.take (d - 1)) else none := by
  unfold parentOf
  by_cases a : d < cur.length
  · rw [if_pos a, if_pos (by omega)]
  · rw [if_neg a]
    by_cases b : d = cur.length
    · rw [if_pos b, if_pos (by omega), List.dropLast_eq_take, b]
    · rw [if_neg b]
      by_cases c : d = cur.length + 1
      · rw [if_pos c, if_pos (by omega), List.take_of_length_le (by omega)]
      · rw [if_neg c, if_neg (by omega)]

theorem named_iff (es : List (Entry V)) (p : Path) (n : String) : named es p n = true ↔ p ++ [n] ∈ es.map Entry.full := by
  simp [named, List.any_eq_true, List.mem_map]

/-- Reading succeeds exactly if ... (with what was read before). -/
theorem parseFrom_ok (l : List (Tok V)) : ∀ (es out : List (Entry V)) (cur : Path), Brackets l → (es.map Entry.full).Nodup →
    (parseFrom es cur l = .ok out ↔ Steps cur.length l ∧ out = es ++ locate cur l ∧ ((es ++ locate cur l).map Entry.full).Nodup) := by
  induction l with
  | nil =>
    intro es out cur _ hn
    simp only [parseFrom, Except.ok.injEq, Steps, locate, List.append_nil, true_and]
    exact ⟨fun h => ⟨h.symm, hn⟩, fun h => h.1.symm⟩
  | cons t r ih =>
    intro es out cur hb hn
    cases t with
    | unbalanced => simp [parseFrom, Steps]
    | junk => simp [parseFrom, Steps]
    | marker d n =>
      rw [Brackets] at hb
      rw [parseFrom, parent_take cur d hb.1, Steps, locate]
      by_cases hd : d ≤ cur.length + 1
      · rw [if_pos hd]
        dsimp only
        have hlen : (cur.take (d - 1) ++ [n]).length = d := by rw [List.length_append, List.length_take]; simp; omega
        by_cases hnm : named es (cur.take (d - 1)) n = true
        · rw [if_pos hnm]
          constructor
          · intro h; simp at h
          · rintro ⟨_, _, h⟩
            exfalso
            rw [List.map_append, List.map_cons, List.nodup_append] at h
            exact h.2.2 _ ((named_iff _ _ _).1 hnm) _ (by simp [Entry.full]) rfl
        · rw [if_neg hnm]
          have hnew : ((es ++ [Entry.sect (cur.take (d - 1) ++ [n])]).map Entry.full).Nodup := by
            rw [List.map_append, List.nodup_append]
            refine ⟨hn, by simp, ?_⟩
            intro a ha b hb' e
            simp only [List.map_cons, List.map_nil, List.mem_singleton, Entry.full] at hb'
            subst hb'
            exact hnm ((named_iff _ _ _).2 (e ▸ ha))
          have := ih (es ++ [.sect (cur.take (d - 1) ++ [n])]) out (cur.take (d - 1) ++ [n]) hb.2 hnew
          rw [this, hlen]
          simp only [List.append_assoc, List.singleton_append]
          tauto
      · rw [if_neg hd]
        simp only [reduceCtorEq, false_iff]
        rintro ⟨⟨_, h, _⟩, _⟩
        exact hd h
    | setting k v =>
      rw [Brackets] at hb
      · rw [parseFrom, Steps, locate]
        by_cases hnm : named es cur k = true
        · rw [if_pos hnm]
          constructor
          · intro h; simp at h
          · rintro ⟨_, _, h⟩
            exfalso
            rw [List.map_append, List.map_cons, List.nodup_append] at h
            exact h.2.2 _ ((named_iff _ _ _).1 hnm) _ (by simp [Entry.full]) rfl
        · rw [if_neg hnm]
          have hnew : ((es ++ [Entry.set cur k v]).map Entry.full).Nodup := by
            rw [List.map_append, List.nodup_append]
            refine ⟨hn, by simp, ?_⟩
            intro a ha b hb' e
            simp only [List.map_cons, List.map_nil, List.mem_singleton, Entry.full] at hb'
            subst hb'
            exact hnm ((named_iff _ _ _).2 (e ▸ ha))
          have := ih (es ++ [.set cur k v]) out cur hb hnew
          rw [this]
          simp only [List.append_assoc, List.singleton_append]
      · intro d n e; cases e

/-- C192.  A file is accepted exactly if every marker has as many closing brackets as opening ones and is at most one deeper than the marker before it, every other line is a setting, and no two
sections or settings have the same full name; then every section and setting is where it belongs. -/
theorem parse_iff (l : List (Tok V)) (hb : Brackets l) (out : List (Entry V)) :
    parse l = .ok out ↔ Steps 0 l ∧ ((locate [] l).map Entry.full).Nodup ∧ out = locate [] l := by
  unfold parse
  rw [parseFrom_ok l [] out [] hb (by simp)]
  simp only [List.length_nil, List.nil_append]
  tauto

/-- C192.  The first error is raised: what is before it is accepted, and the line is what the error says. -/
theorem parse_error (l : List (Tok V)) (hb : Brackets l) : ∀ (es : List (Entry V)) (cur : Path) (e : Err), (es.map Entry.full).Nodup → parseFrom es cur l = .error e →
    ∃ pre t post es' cur', l = pre ++ t :: post ∧ parseFrom es cur pre = .ok es' ∧ es' = es ++ locate cur pre ∧ locate cur (pre ++ [t]) = locate cur pre ++ locate cur' [t] ∧
      ((e = .nesting ∧ (t = .unbalanced ∨ ∃ d n, t = .marker d n ∧ cur'.length + 1 < d)) ∨ (e = .parse ∧ t = .junk) ∨
       (e = .duplicate ∧ ((∃ d n, t = .marker d n ∧ cur'.take (d - 1) ++ [n] ∈ es'.map Entry.full) ∨ ∃ k v, t = .setting k v ∧ cur' ++ [k] ∈ es'.map Entry.full))) := by
  induction l with
  | nil => intro es cur e _ h; simp [parseFrom] at h
  | cons t r ih =>
    intro es cur e hn h
    cases t with
    | unbalanced =>
      simp only [parseFrom, Except.error.injEq] at h
      exact ⟨[], .unbalanced, r, es, cur, rfl, rfl, by simp [locate], by simp [locate], Or.inl ⟨h.symm, Or.inl rfl⟩⟩
    | junk =>
      simp only [parseFrom, Except.error.injEq] at h
      exact ⟨[], .junk, r, es, cur, rfl, rfl, by simp [locate], by simp [locate], Or.inr (Or.inl ⟨h.symm, rfl⟩)⟩
    | marker d n =>
      rw [Brackets] at hb
      rw [parseFrom, parent_take cur d hb.1] at h
      by_cases hd : d ≤ cur.length + 1
      · rw [if_pos hd] at h
        dsimp only at h
        by_cases hnm : named es (cur.take (d - 1)) n = true
        · rw [if_pos hnm] at h
          simp only [Except.error.injEq] at h
          exact ⟨[], .marker d n, r, es, cur, rfl, rfl, by simp [locate], by simp [locate], Or.inr (Or.inr ⟨h.symm, Or.inl ⟨d, n, rfl, (named_iff _ _ _).1 hnm⟩⟩)⟩
        · rw [if_neg hnm] at h
          have hnew : ((es ++ [Entry.sect (cur.take (d - 1) ++ [n])]).map Entry.full).Nodup := by
            rw [List.map_append, List.nodup_append]
            refine ⟨hn, by simp, ?_⟩
            intro a ha b hb' e
            simp only [List.map_cons, List.map_nil, List.mem_singleton, Entry.full] at hb'
            subst hb'
            exact hnm ((named_iff _ _ _).2 (e ▸ ha))
          obtain ⟨pre, t, post, es', cur', h1, h2, h3, h4, h5⟩ := ih hb.2 _ _ e hnew h
          refine ⟨.marker d n :: pre, t, post, es', cur', by rw [h1]; rfl, ?_, by rw [h3, locate]; simp, by rw [List.cons_append, locate, locate, h4]; rfl, h5⟩
          rw [parseFrom, parent_take cur d hb.1, if_pos hd]
          dsimp only
          rw [if_neg hnm, h2]
      · rw [if_neg hd] at h
        simp only [Except.error.injEq] at h
        exact ⟨[], .marker d n, r, es, cur, rfl, rfl, by simp [locate], by simp [locate], Or.inl ⟨h.symm, Or.inr ⟨d, n, rfl, by omega⟩⟩⟩
    | setting k v =>
      rw [parseFrom] at h
      by_cases hnm : named es cur k = true
      · rw [if_pos hnm] at h
        simp only [Except.error.injEq] at h
        exact ⟨[], .setting k v, r, es, cur, rfl, rfl, by simp [locate], by simp [locate], Or.inr (Or.inr ⟨h.symm, Or.inr ⟨k, v, rfl, (named_iff _ _ _).1 hnm⟩⟩)⟩
      · rw [if_neg hnm] at h
        have hnew : ((es ++ [Entry.set cur k v]).map Entry.full).Nodup := by
          rw [List.map_append, List.nodup_append]
          refine ⟨hn, by simp, ?_⟩
          intro a ha b hb' e
          simp only [List.map_cons, List.map_nil, List.mem_singleton, Entry.full] at hb'
          subst hb'
          exact hnm ((named_iff _ _ _).2 (e ▸ ha))
        have hb' : Brackets r := by
          rw [Brackets] at hb
          · exact hb
          · intro d n e; cases e
        obtain ⟨pre, t, post, es', cur', h1, h2, h3, h4, h5⟩ := ih hb' _ _ e hnew h
        refine ⟨.setting k v :: pre, t, post, es', cur', by rw [h1]; rfl, ?_, by rw [h3, locate]; simp, by rw [List.cons_append, locate, locate, h4]; rfl, h5⟩
        rw [parseFrom, if_neg hnm, h2]

/-! ### Writing -/

theorem locate_settings (p : Path) (sc : List (String × V)) (r : List (Tok V)) :
    locate p (sc.map (fun q => Tok.setting q.1 q.2) ++ r) = sc.map (fun q => Entry.set p q.1 q.2) ++ locate p r := by
  induction sc with
  | nil => rfl
  | cons q sc ih => rw [List.map_cons, List.cons_append, locate, ih]; rfl

theorem steps_settings (d : ℕ) (sc : List (String × V)) (r : List (Tok V)) : Steps d (sc.map (fun q => Tok.setting q.1 q.2) ++ r) ↔ Steps d r := by
  induction sc with
  | nil => rfl
  | cons q sc ih => rw [List.map_cons, List.cons_append, Steps, ih]

theorem brackets_append (a b : List (Tok V)) : Brackets (a ++ b) ↔ Brackets a ∧ Brackets b := by
  induction a with
  | nil => simp [Brackets]
  | cons t a ih => cases t <;> simp only [List.cons_append, Brackets, ih, and_assoc]

/-- The depth after lines. -/
def lastDepth (d : ℕ) : List (Tok V) → ℕ
  | [] => d
  | .marker d' _ :: r => lastDepth d' r
  | _ :: r => lastDepth d r

theorem steps_append (d : ℕ) (a b : List (Tok V)) : Steps d (a ++ b) ↔ Steps d a ∧ Steps (lastDepth d a) b := by
  induction a generalizing d with
  | nil => simp [Steps, lastDepth]
  | cons t a ih => cases t <;> simp only [List.cons_append, Steps, lastDepth, ih, and_assoc, false_and]

theorem lastDepth_settings (d : ℕ) (sc : List (String × V)) : lastDepth d (sc.map (fun q => Tok.setting q.1 q.2)) = d := by
  induction sc with
  | nil => rfl
  | cons q sc ih => rw [List.map_cons, lastDepth, ih]; intro _ _ e; cases e

theorem lastDepth_append (d : ℕ) (a b : List (Tok V)) : lastDepth d (a ++ b) = lastDepth (lastDepth d a) b := by
  induction a generalizing d with
  | nil => rfl
  | cons t a ih => cases t <;> simp only [List.cons_append, lastDepth, ih]

/-- The current section after lines. -/
def after (cur : Path) : List (Tok V) → Path
  | [] => cur
  | .marker d n :: r => after (cur.take (d - 1) ++ [n]) r
  | _ :: r => after cur r

theorem locate_append (cur : Path) (a b : List (Tok V)) : locate cur (a ++ b) = locate cur a ++ locate (after cur a) b := by
  induction a generalizing cur with
  | nil => rfl
  | cons t a ih => cases t <;> simp only [List.cons_append, locate, after, ih]

theorem after_append (cur : Path) (a b : List (Tok V)) : after cur (a ++ b) = after (after cur a) b := by
  induction a generalizing cur with
  | nil => rfl
  | cons t a ih => cases t <;> simp only [List.cons_append, after, ih]

theorem after_settings (cur : Path) (sc : List (String × V)) : after cur (sc.map (fun q => Tok.setting q.1 q.2)) = cur := by
  induction sc with
  | nil => rfl
  | cons q sc ih => rw [List.map_cons, after, ih]; intro _ _ e; cases e

mutual
theorem write_spec (p cur : Path) (hcur : cur = p) : ∀ s : Sect V, locate cur (write p.length s) = entries p s ∧ p <+: after cur (write p.length s) ∧
    Steps p.length (write p.length s) ∧ p.length ≤ lastDepth p.length (write p.length s) ∧ Brackets (write p.length s)
  | .mk sc subs => by
    subst hcur
    rw [write, entries, locate_settings, after_append, after_settings, steps_settings, lastDepth_append, lastDepth_settings, brackets_append]
    obtain ⟨h1, h2, h3, h4, h5⟩ := writeSubs_spec cur cur List.prefix_rfl cur.length le_rfl subs
    refine ⟨by rw [h1], h2, h3, h4, ?_, h5⟩
    clear h1 h2 h3 h4 h5
    induction sc with
    | nil => trivial
    | cons q sc ih => rw [List.map_cons, Brackets]; · exact ih
                      intro _ _ e; cases e
theorem writeSubs_spec (p cur : Path) (hp : p <+: cur) (d : ℕ) (hd : p.length ≤ d) : ∀ s : Subs V, locate cur (writeSubs p.length s) = entriesSubs p s ∧ p <+: after cur (writeSubs p.length s) ∧
    Steps d (writeSubs p.length s) ∧ p.length ≤ lastDepth d (writeSubs p.length s) ∧ Brackets (writeSubs p.length s)
  | .nil => ⟨rfl, hp, trivial, hd, trivial⟩
  | .cons n s r => by
    have ht : cur.take (p.length + 1 - 1) = p := by
      obtain ⟨q, rfl⟩ := hp
      simp
    have hlen : (p ++ [n]).length = p.length + 1 := by simp
    have h := write_spec (p ++ [n]) (p ++ [n]) rfl s
    rw [hlen] at h
    obtain ⟨h1, h2, h3, h4, h5⟩ := h
    have hp' : p <+: after (p ++ [n]) (write (p.length + 1) s) := List.IsPrefix.trans (List.prefix_append p [n]) h2
    obtain ⟨k1, k2, k3, k4, k5⟩ := writeSubs_spec p _ hp' (lastDepth (p.length + 1) (write (p.length + 1) s)) (by omega) r
    rw [writeSubs, entriesSubs]
    simp only [List.cons_append, locate, after, Steps, lastDepth, Brackets]
    rw [ht, locate_append, after_append, steps_append, lastDepth_append, brackets_append, h1, k1]
    exact ⟨rfl, k2, ⟨by omega, by omega, h3, k3⟩, k4, by omega, h5, k5⟩
end

/-- Full names of the parts of a tree. -/
theorem full_prefix (p : Path) : ∀ s : Sect V, (∀ e ∈ entries p s, ∃ q, e.full = p ++ q ∧ q ≠ []) ∧ True
  | .mk sc subs => ⟨by
    have hsubs : ∀ e ∈ entriesSubs p subs, ∃ q, e.full = p ++ q ∧ q ≠ [] := full_prefix_subs p subs
    intro e he
    rw [entries, List.mem_append] at he
    rcases he with he | he
    · obtain ⟨x, _, rfl⟩ := List.mem_map.1 he
      exact ⟨[x.1], rfl, by simp⟩
    · exact hsubs e he, trivial⟩
where
  full_prefix_subs (p : Path) : ∀ s : Subs V, ∀ e ∈ entriesSubs p s, ∃ q, e.full = p ++ q ∧ q ≠ []
    | .nil, e, he => by simp [entriesSubs] at he
    | .cons n s r, e, he => by
      rw [entriesSubs, List.cons_append, List.mem_cons, List.mem_append] at he
      rcases he with rfl | he | he
      · exact ⟨[n], rfl, by simp⟩
      · obtain ⟨q, hq, _⟩ := (full_prefix (p ++ [n]) s).1 e he
        exact ⟨n :: q, by rw [hq]; simp, by simp⟩
      · exact full_prefix_subs p r e he

theorem subs_head (p : Path) : ∀ s : Subs V, ∀ e ∈ entriesSubs p s, ∃ n q, n ∈ s.names ∧ e.full = p ++ n :: q
  | .nil, e, he => by simp [entriesSubs] at he
  | .cons n s r, e, he => by
    rw [entriesSubs, List.cons_append, List.mem_cons, List.mem_append] at he
    rcases he with rfl | he | he
    · exact ⟨n, [], by simp [Subs.names], rfl⟩
    · obtain ⟨q, hq, _⟩ := (full_prefix (p ++ [n]) s).1 e he
      exact ⟨n, q, by simp [Subs.names], by rw [hq]; simp⟩
    · obtain ⟨m, q, hm, hq⟩ := subs_head p r e he
      exact ⟨m, q, by simp [Subs.names, hm], hq⟩

mutual
theorem nodup_entries (p : Path) : ∀ s : Sect V, Valid s → ((entries p s).map Entry.full).Nodup
  | .mk sc subs, h => by
    rw [Valid, List.nodup_append] at h
    obtain ⟨⟨h1, h2, h3⟩, h4⟩ := h
    rw [entries, List.map_append, List.nodup_append]
    refine ⟨?_, nodup_subs p subs h2 h4, ?_⟩
    · rw [List.map_map]
      have : (Entry.full ∘ fun q : String × V => Entry.set p q.1 q.2) = (fun k => p ++ [k]) ∘ (·.1) := rfl
      rw [this, ← List.map_map]
      exact h1.map (fun a b e => by simpa using e)
    · intro a ha b hb e
      rw [List.map_map, List.mem_map] at ha
      obtain ⟨q, hq, rfl⟩ := ha
      obtain ⟨x, hx, rfl⟩ := List.mem_map.1 hb
      obtain ⟨n, r, hn, hf⟩ := subs_head p subs x hx
      rw [hf] at e
      simp only [Function.comp, Entry.full, List.append_cancel_left_eq, List.cons.injEq] at e
      exact h3 q.1 (List.mem_map.2 ⟨q, hq, rfl⟩) n hn e.1
theorem nodup_subs (p : Path) : ∀ s : Subs V, s.names.Nodup → ValidSubs s → ((entriesSubs p s).map Entry.full).Nodup
  | .nil, _, _ => by simp [entriesSubs]
  | .cons n s r, hn, hv => by
    rw [Subs.names, List.nodup_cons] at hn
    rw [ValidSubs] at hv
    rw [entriesSubs, List.cons_append, List.map_cons, List.nodup_cons, List.map_append, List.nodup_append]
    refine ⟨?_, nodup_entries (p ++ [n]) s hv.1, nodup_subs p r hn.2 hv.2, ?_⟩
    · intro h
      rw [List.mem_append] at h
      rcases h with h | h
      · obtain ⟨x, hx, e⟩ := List.mem_map.1 h
        obtain ⟨q, hq, hne⟩ := (full_prefix (p ++ [n]) s).1 x hx
        rw [hq] at e
        simp only [Entry.full] at e
        exact hne (by simpa using e)
      · obtain ⟨x, hx, e⟩ := List.mem_map.1 h
        obtain ⟨m, q, hm, hq⟩ := subs_head p r x hx
        rw [hq] at e
        simp only [Entry.full, List.append_cancel_left_eq, List.cons.injEq] at e
        exact hn.1 (e.1 ▸ hm)
    · intro a ha b hb e
      obtain ⟨x, hx, rfl⟩ := List.mem_map.1 ha
      obtain ⟨y, hy, rfl⟩ := List.mem_map.1 hb
      obtain ⟨q, hq, _⟩ := (full_prefix (p ++ [n]) s).1 x hx
      obtain ⟨m, q', hm, hq'⟩ := subs_head p r y hy
      rw [hq, hq', List.append_assoc] at e
      simp only [List.append_cancel_left_eq, List.cons_append, List.nil_append, List.cons.injEq] at e
      exact hn.1 (e.1 ▸ hm)
end

/-- C192.  A configuration of any nesting that is written and read again has the same sections and settings, in the same order. -/
theorem written_read (s : Sect V) (h : Valid s) : parse (write 0 s) = .ok (entries [] s) := by
  obtain ⟨h1, _, h3, _, h5⟩ := write_spec ([] : Path) [] rfl s
  rw [List.length_nil] at h1 h3 h5
  rw [parse_iff _ h5]
  exact ⟨h3, by rw [h1]; exact nodup_entries [] s h, h1.symm⟩

/-- C192.  With `raise_errors` the first error is raised; without it the file is accepted in the same cases, and otherwise there is one error at the end - except that a file whose first section is
deeper than one level is an UnboundLocalError. -/
theorem load_exact (l : List (Tok V)) (hb : Brackets l) :
    load true l = parse l ∧ (∀ es, load false l = .ok es ↔ parse l = .ok es) ∧
    (load false l = .error .unbound ↔ ∃ d n pre post, l = pre ++ .marker d n :: post ∧ 2 ≤ d ∧ ∀ t ∈ pre, ∀ d n, t ≠ .marker d n) := by
  have hfd : ∀ l : List (Tok V), ∀ d, firstDepth l = some d ↔ ∃ n pre post, l = pre ++ .marker d n :: post ∧ ∀ t ∈ pre, ∀ d n, t ≠ .marker d n := by
    intro l
    induction l with
    | nil => intro d; simp [firstDepth]
    | cons t l ih =>
      intro d
      cases t with
      | marker d' n' =>
        simp only [firstDepth, Option.some.injEq]
        constructor
        · rintro rfl; exact ⟨n', [], l, rfl, by simp⟩
        · rintro ⟨n, pre, post, e, hp⟩
          cases pre with
          | nil => simp only [List.nil_append, List.cons.injEq, Tok.marker.injEq] at e; exact e.1.1
          | cons t pre =>
            simp only [List.cons_append, List.cons.injEq] at e
            exact absurd e.1.symm (hp t (by simp) d' n')
      | _ =>
        simp only [firstDepth, ih]
        constructor
        · rintro ⟨n, pre, post, e, hp⟩
          refine ⟨n, _ :: pre, post, by rw [e]; rfl, ?_⟩
          intro t ht
          rcases List.mem_cons.1 ht with rfl | ht
          · intro _ _ e; cases e
          · exact hp t ht
        · rintro ⟨n, pre, post, e, hp⟩
          cases pre with
          | nil => simp at e
          | cons t pre =>
            simp only [List.cons_append, List.cons.injEq] at e
            exact ⟨n, pre, post, e.2, fun t ht => hp t (by simp [ht])⟩
  have hdeep : ∀ l : List (Tok V), Brackets l → ∀ d, firstDepth l = some (d + 2) → ¬ Steps 0 l := by
    intro l
    induction l with
    | nil => intro _ d h; simp [firstDepth] at h
    | cons t l ih =>
      intro hb d h hs
      cases t with
      | marker d' n' =>
        simp only [firstDepth, Option.some.injEq] at h
        simp only [Steps] at hs
        omega
      | setting k v =>
        simp only [firstDepth] at h
        simp only [Steps] at hs
        have hb' : Brackets l := by
          rw [Brackets] at hb
          · exact hb
          · intro _ _ e; cases e
        exact ih hb' d h hs
      | unbalanced => exact hs
      | junk => exact hs
  refine ⟨rfl, fun es => ?_, ?_⟩
  · unfold load
    rw [if_neg (by simp)]
    cases hf : firstDepth l with
    | none => dsimp only; cases parse l <;> simp
    | some d =>
      match d, hf with
      | 0, _ => dsimp only; cases parse l <;> simp
      | 1, _ => dsimp only; cases parse l <;> simp
      | d + 2, hf =>
        simp only [reduceCtorEq, false_iff]
        intro h
        exact hdeep l hb d hf ((parse_iff l hb es).1 h).1
  · have key : load false l = .error .unbound ↔ ∃ d, firstDepth l = some (d + 2) := by
      unfold load
      rw [if_neg (by simp)]
      cases hf : firstDepth l with
      | none => dsimp only; cases parse l <;> simp
      | some d =>
        match d, hf with
        | 0, _ => dsimp only; cases parse l <;> simp
        | 1, _ => dsimp only; cases parse l <;> simp
        | d + 2, hf => simp
    rw [key]
    constructor
    · rintro ⟨d, h⟩
      obtain ⟨n, pre, post, e, hp⟩ := (hfd l _).1 h
      exact ⟨d + 2, n, pre, post, e, by omega, hp⟩
    · rintro ⟨d, n, pre, post, e, h2, hp⟩
      obtain ⟨d, rfl⟩ : ∃ k, d = k + 2 := ⟨d - 2, by omega⟩
      exact ⟨d, (hfd l _).2 ⟨n, pre, post, e, hp⟩⟩

/-- A case: two levels, back to the first, and a section that is too deep. -/
theorem example_tree :
    parse [Tok.setting "x" 1, .marker 1 "a", .setting "x" 2, .marker 2 "b", .setting "y" 3, .marker 1 "c"] =
      .ok [.set [] "x" 1, .sect ["a"], .set ["a"] "x" 2, .sect ["a", "b"], .set ["a", "b"] "y" 3, .sect ["c"]] ∧
    parse [Tok.marker 1 "a", .marker 3 "b", .setting "y" 3] = .error .nesting ∧ load false [Tok.setting "y" 3, .marker 2 "b"] = .error .unbound ∧
    Valid (.mk [("x", 1)] (.cons "a" (.mk [("x", 2)] (.cons "b" (.mk [] .nil) .nil)) .nil)) := by
  refine ⟨rfl, rfl, rfl, ?_⟩
  simp [Valid, ValidSubs, Subs.names]

end Verif.ConfigTree
