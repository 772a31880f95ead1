import Verif.ConfigValidateAfter

/-!
# Lists of errors and of unknown names (astropysics/external/configobj.py 2382-2470) (C180)

`flatten_errors` with its two mutable lists, and `get_extra_values`.
-/

namespace Verif.ConfigValidate

variable {V C E : Type}

/-- A reported failure: sections, name or None, result. -/
abbrev Fail (E : Type) := List String × Option String × R E

mutual
/-- `flatten_errors`, configobj.py 2382-2440, on the lists `levels` and `results`. -/
def flatten (cfg : Sec V) : R E → List String × List (Fail E) → List String × List (Fail E)
  | .tt, st => st
  | .ff, (lv, rs) => (lv.dropLast, rs ++ [(lv, none, .ff)])
  | .err e, (lv, rs) => (lv.dropLast, rs ++ [(lv, none, .err e)])
  | .node m, st => let st' := flattenItems cfg m st; (st'.1.dropLast, st'.2)
/-- The loop over the dictionary. -/
def flattenItems (cfg : Sec V) : Rs E → List String × List (Fail E) → List String × List (Fail E)
  | .nil, st => st
  | .cons k r rest, (lv, rs) =>
    if r.isTrue then flattenItems cfg rest (lv, rs) else
    match look cfg.sub k with
    | some t => flattenItems cfg rest (flatten t r (lv ++ [k], rs))
    | none => flattenItems cfg rest (lv, rs ++ [(lv, some k, r)])
end

/-- `flatten_errors(cfg, res)`. -/
def flattenErrors (cfg : Sec V) (res : R E) : List (Fail E) := (flatten cfg res ([], [])).2

mutual
/-- `get_extra_values`, configobj.py 2442-2470. -/
def extraValues : Sec V → List String → List (List String × String)
  | .mk _ _ secs ex, pre => ex.map (fun n => (pre, n)) ++ extraSecs ex secs pre
def extraSecs (ex : List String) : Secs V → List String → List (List String × String)
  | .nil, _ => []
  | .cons k s rest, pre => (if k ∈ ex then [] else extraValues s (pre ++ [k])) ++ extraSecs ex rest pre
end

/-- What has to be reported: a section that failed as a whole, or a name of a dictionary that is no section of the configuration and did not pass. -/
inductive Fails : Sec V → R E → List String → Option String → R E → Prop
  | missing (cfg : Sec V) : Fails cfg .ff [] none .ff
  | wrong (cfg : Sec V) (e : E) : Fails cfg (.err e) [] none (.err e)
  | leaf (cfg : Sec V) (m : Rs E) (k : String) (r : R E) : (k, r) ∈ m.toList → r ≠ .tt → look cfg.sub k = none → Fails cfg (.node m) [] (some k) r
  | down (cfg : Sec V) (m : Rs E) (k : String) (r : R E) (t : Sec V) (path : List String) (key : Option String) (x : R E) : (k, r) ∈ m.toList →
      look cfg.sub k = some t → Fails t r path key x → Fails cfg (.node m) (k :: path) key x

/-- A section reached over sections that are in the configspec. -/
inductive Reach : Sec V → List String → Sec V → Prop
  | here (s : Sec V) : Reach s [] s
  | down (s t u : Sec V) (k : String) (path : List String) : (k, t) ∈ s.sub → k ∉ s.extra → Reach t path u → Reach s (k :: path) u

mutual
/-- The failures below a result, in order. -/
def fails (cfg : Sec V) : R E → List (Fail E)
  | .tt => []
  | .ff => [([], none, .ff)]
  | .err e => [([], none, .err e)]
  | .node m => failsItems cfg m
def failsItems (cfg : Sec V) : Rs E → List (Fail E)
  | .nil => []
  | .cons k r rest => (if r.isTrue then [] else match look cfg.sub k with
    | some t => (fails t r).map (fun f => (k :: f.1, f.2))
    | none => [([], some k, r)]) ++ failsItems cfg rest
end

mutual
theorem flatten_eq (cfg : Sec V) : ∀ (r : R E) (lv : List String) (rs : List (Fail E)), r ≠ .tt →
    flatten cfg r (lv, rs) = (lv.dropLast, rs ++ (fails cfg r).map (fun f => (lv ++ f.1, f.2)))
  | .tt, _, _, h => absurd rfl h
  | .ff, lv, rs, _ => by simp [flatten, fails]
  | .err e, lv, rs, _ => by simp [flatten, fails]
  | .node m, lv, rs, _ => by simp only [flatten, fails, items_eq cfg m lv rs]
theorem items_eq (cfg : Sec V) : ∀ (m : Rs E) (lv : List String) (rs : List (Fail E)),
    flattenItems cfg m (lv, rs) = (lv, rs ++ (failsItems cfg m).map (fun f => (lv ++ f.1, f.2)))
  | .nil, lv, rs => by simp [flattenItems, failsItems]
  | .cons k r rest, lv, rs => by
    simp only [flattenItems, failsItems]
    by_cases h : r.isTrue = true
    · simp only [h, if_true, List.nil_append]; exact items_eq cfg rest lv rs
    · simp only [h, if_false, Bool.false_eq_true]
      cases look cfg.sub k with
      | some t =>
        dsimp only
        rw [flatten_eq t r (lv ++ [k]) rs (fun e => h ((isTrue_iff r).2 e)), List.dropLast_concat, items_eq cfg rest]
        simp
      | none =>
        dsimp only
        rw [items_eq cfg rest]
        simp
end

mutual
theorem mem_fails (cfg : Sec V) : ∀ (r : R E) (path : List String) (key : Option String) (x : R E), (path, key, x) ∈ fails cfg r ↔ Fails cfg r path key x
  | .tt, path, key, x => by
    simp only [fails, List.not_mem_nil, false_iff]
    intro h; cases h
  | .ff, path, key, x => by
    simp only [fails, List.mem_singleton, Prod.mk.injEq]
    constructor
    · rintro ⟨rfl, rfl, rfl⟩; exact .missing cfg
    · intro h; cases h; exact ⟨rfl, rfl, rfl⟩
  | .err e, path, key, x => by
    simp only [fails, List.mem_singleton, Prod.mk.injEq]
    constructor
    · rintro ⟨rfl, rfl, rfl⟩; exact .wrong cfg e
    · intro h; cases h; exact ⟨rfl, rfl, rfl⟩
  | .node m, path, key, x => by
    rw [fails, mem_failsItems cfg m]
    constructor
    · rintro ⟨k, r, h1, h2, ⟨h3, rfl, rfl, rfl⟩ | ⟨t, path', h3, rfl, h4⟩⟩
      · exact .leaf cfg m k x h1 h2 h3
      · exact .down cfg m k r t path' key x h1 h3 h4
    · intro h
      cases h with
      | leaf _ _ k _ h1 h2 h3 => exact ⟨k, x, h1, h2, Or.inl ⟨h3, rfl, rfl, rfl⟩⟩
      | down _ _ k r t path' _ _ h1 h3 h4 =>
        exact ⟨k, r, h1, (by rintro rfl; cases h4), Or.inr ⟨t, path', h3, rfl, h4⟩⟩
theorem mem_failsItems (cfg : Sec V) : ∀ (m : Rs E) (path : List String) (key : Option String) (x : R E), (path, key, x) ∈ failsItems cfg m ↔
    ∃ k r, (k, r) ∈ m.toList ∧ r ≠ .tt ∧ ((look cfg.sub k = none ∧ path = [] ∧ key = some k ∧ x = r) ∨
      ∃ t path', look cfg.sub k = some t ∧ path = k :: path' ∧ Fails t r path' key x)
  | .nil, path, key, x => by simp [failsItems, Rs.toList]
  | .cons k r rest, path, key, x => by
    rw [failsItems, List.mem_append, mem_failsItems cfg rest]
    have hhead : (path, key, x) ∈ (if r.isTrue then [] else match look cfg.sub k with
        | some t => (fails t r).map (fun f => (k :: f.1, f.2))
        | none => [([], some k, r)]) ↔ r ≠ .tt ∧ ((look cfg.sub k = none ∧ path = [] ∧ key = some k ∧ x = r) ∨
      ∃ t path', look cfg.sub k = some t ∧ path = k :: path' ∧ Fails t r path' key x) := by
      by_cases h : r.isTrue = true
      · have := (isTrue_iff r).1 h; rw [if_pos h]; simp [this]
      · have hne : r ≠ .tt := fun e => h ((isTrue_iff r).2 e)
        simp only [h, Bool.false_eq_true, if_false, hne, ne_eq, not_false_eq_true, true_and]
        cases hl : look cfg.sub k with
        | none => simp
        | some t =>
          simp only [List.mem_map, Prod.mk.injEq, Prod.exists, reduceCtorEq, false_and, false_or, Option.some.injEq]
          constructor
          · rintro ⟨a, b, c, h1, rfl, rfl, rfl⟩; exact ⟨t, a, rfl, rfl, (mem_fails t r a b c).1 h1⟩
          · rintro ⟨_, a, rfl, rfl, h1⟩; exact ⟨a, key, x, (mem_fails t r a key x).2 h1, rfl, rfl, rfl⟩
    rw [hhead]
    simp only [Rs.toList, List.mem_cons, Prod.mk.injEq]
    constructor
    · rintro (h | ⟨k', r', h1, h2⟩)
      · exact ⟨k, r, Or.inl ⟨rfl, rfl⟩, h⟩
      · exact ⟨k', r', Or.inr h1, h2⟩
    · rintro ⟨k', r', ⟨rfl, rfl⟩ | h1, h2⟩
      · exact Or.inl h2
      · exact Or.inr ⟨k', r', h1, h2⟩
end

/-- C180.  `flatten_errors` reports exactly the failures, each with the sections it is in. -/
theorem flatten_exact (cfg : Sec V) (res : R E) (path : List String) (key : Option String) (x : R E) :
    (path, key, x) ∈ flattenErrors cfg res ↔ Fails cfg res path key x := by
  have e : flattenErrors cfg res = fails cfg res := by
    unfold flattenErrors
    by_cases h : res = .tt
    · subst h; simp [flatten, fails]
    · rw [flatten_eq cfg res [] [] h]; simp
  rw [e, mem_fails]

mutual
theorem mem_extra : ∀ (s : Sec V) (pre path : List String) (n : String), (path, n) ∈ extraValues s pre ↔ ∃ q t, path = pre ++ q ∧ Reach s q t ∧ n ∈ t.extra
  | .mk c sc secs ex, pre, path, n => by
    rw [extraValues, List.mem_append, mem_extraSecs ex secs]
    simp only [List.mem_map, Prod.mk.injEq]
    constructor
    · rintro (⟨n', h, rfl, rfl⟩ | ⟨k, s, q, t, h1, h2, rfl, h4, h5⟩)
      · exact ⟨[], _, by simp, .here _, h⟩
      · exact ⟨k :: q, t, rfl, .down _ s t k q h1 h2 h4, h5⟩
    · rintro ⟨q, t, rfl, hr, hn⟩
      cases hr with
      | here => exact Or.inl ⟨n, hn, by simp, rfl⟩
      | down _ s _ k q' h1 h2 h3 => exact Or.inr ⟨k, s, q', t, h1, h2, rfl, h3, hn⟩
theorem mem_extraSecs (ex : List String) : ∀ (l : Secs V) (pre path : List String) (n : String), (path, n) ∈ extraSecs ex l pre ↔
    ∃ k s q t, (k, s) ∈ l.toList ∧ k ∉ ex ∧ path = pre ++ k :: q ∧ Reach s q t ∧ n ∈ t.extra
  | .nil, pre, path, n => by simp [extraSecs, Secs.toList]
  | .cons k s rest, pre, path, n => by
    rw [extraSecs, List.mem_append, mem_extraSecs ex rest]
    simp only [Secs.toList, List.mem_cons, Prod.mk.injEq]
    have hm := mem_extra s (pre ++ [k]) path n
    constructor
    · rintro (h | ⟨k', s', q, t, h1, h2⟩)
      · by_cases hk : k ∈ ex
        · simp [hk] at h
        · rw [if_neg hk] at h
          obtain ⟨q, t, h1, h2, h3⟩ := hm.1 h
          exact ⟨k, s, q, t, Or.inl ⟨rfl, rfl⟩, hk, by simpa using h1, h2, h3⟩
      · exact ⟨k', s', q, t, Or.inr h1, h2⟩
    · rintro ⟨k', s', q, t, ⟨rfl, rfl⟩ | h1, h2, h3, h4⟩
      · left
        rw [if_neg h2]
        exact hm.2 ⟨q, t, by simpa using h3, h4⟩
      · exact Or.inr ⟨k', s', q, t, h1, h2, h3, h4⟩
end

/-- C180.  `get_extra_values` reports exactly the extra names of the sections reached without passing an extra section. -/
theorem extra_exact (s : Sec V) (path : List String) (n : String) : (path, n) ∈ extraValues s [] ↔ ∃ t, Reach s path t ∧ n ∈ t.extra := by
  rw [mem_extra]
  constructor
  · rintro ⟨q, t, rfl, h⟩; exact ⟨t, by simpa using h.1, h.2⟩
  · rintro ⟨t, h⟩; exact ⟨path, t, by simp, h⟩

/-- A name outside the configspec: a setting, or a subsection, at this place. -/
inductive Unknown : Bool → Spec C → Sec V → List String → String → Prop
  | setting (top : Bool) (p : Spec C) (s : Sec V) (k : String) : p.many = none → k ∈ keys s.scal → k ∉ keys p.scal → k ∉ keys p.sub → Unknown top p s [] k
  | section (top : Bool) (p : Spec C) (s : Sec V) (k : String) : k ∈ keys s.sub → specFor top p k = none → ¬ (top = true ∧ k = "DEFAULT") → Unknown top p s [] k
  | down (top : Bool) (p : Spec C) (s : Sec V) (k : String) (t : Sec V) (q : Spec C) (path : List String) (n : String) : (k, t) ∈ s.sub → specFor top p k = some q →
      Unknown false q t path n → Unknown top p s (k :: path) n

/-- Names are unique in every section that is validated, and DEFAULT at the top was never validated. -/
inductive Good : Bool → Spec C → Sec V → Prop
  | mk (top : Bool) (p : Spec C) (s : Sec V) (names : Names p s) (fresh : top = true → ∀ t, ("DEFAULT", t) ∈ s.sub → extraValues t [] = [])
      (subs : ∀ k t q, (k, t) ∈ s.sub → specFor top p k = some q → Good false q t)
      (created : ∀ k q, k ∈ keys p.sub → specFor top p k = some q → Good false q (Sec.empty : Sec V)) : Good top p s

theorem not_unknown_empty (top : Bool) (p : Spec C) (path : List String) (n : String) : ¬ Unknown top p (Sec.empty : Sec V) path n := by
  intro h
  have e1 : (Sec.empty : Sec V).sub = [] := rfl
  have e2 : (Sec.empty : Sec V).scal = [] := rfl
  cases h with
  | setting _ _ _ _ h1 h2 => rw [e2] at h2; simp [keys] at h2
  | «section» _ _ _ _ h1 => rw [e1] at h1; simp [keys] at h1
  | down _ _ _ k t q path n h1 => rw [e1] at h1; simp at h1

/-- C180.  After validation `get_extra_values` lists exactly the settings and sections outside the configspec. -/
theorem extra_after [DecidableEq V] {vd : Vdt V C E} {pr top : Bool} {p : Spec C} {s s' : Sec V} {r : R E} (hg : Good top p s)
    (h : validate vd pr top p s = some (r, s')) (path : List String) (n : String) : (path, n) ∈ extraValues s' [] ↔ Unknown top p s path n := by
  rw [extra_exact]
  induction hg generalizing r s' path with
  | mk top p s names fresh subs created ihs ihc =>
    obtain ⟨a1, a2, a3⟩ := subs_after names h
    have hnd : (keys s'.sub).Nodup := by
      rw [a1]
      refine List.nodup_append.2 ⟨names.n5, names.n2.filter _, ?_⟩
      intro a ha b hb
      rintro rfl
      simp only [List.mem_filter, decide_eq_true_eq] at hb
      exact hb.2.2 ha
    have hsub : ∀ k t, (k, t) ∈ s'.sub → k ∉ s'.extra → (∃ t0 q r', ((k, t0) ∈ s.sub ∨ (k ∈ keys p.sub ∧ t0 = Sec.empty)) ∧ specFor top p k = some q ∧
        validate vd pr false q t0 = some (r', t)) ∨ (top = true ∧ k = "DEFAULT" ∧ (("DEFAULT", t) ∈ s.sub ∨ t = Sec.empty)) := by
      intro k t ht hk
      have hl := look_of_mem _ _ _ hnd ht
      have hin : ∃ t0, (k, t0) ∈ s.sub ∨ (k ∈ keys p.sub ∧ k ∉ keys s.sub ∧ k ∉ keys s.scal ∧ t0 = Sec.empty) := by
        have : k ∈ keys s'.sub := (mem_keys _ _).2 ⟨t, ht⟩
        rw [a1, List.mem_append, List.mem_filter, decide_eq_true_eq] at this
        rcases this with h1 | ⟨h1, h2, h3⟩
        · obtain ⟨t0, h0⟩ := (mem_keys _ _).1 h1
          exact ⟨t0, Or.inl h0⟩
        · exact ⟨_, Or.inr ⟨h1, h3, h2, rfl⟩⟩
      obtain ⟨t0, h0⟩ := hin
      obtain ⟨b1, b2⟩ := a2 k t0 h0
      cases hq : specFor top p k with
      | some q =>
        obtain ⟨r', t', h1, h2⟩ := b1 q hq
        rw [hl] at h2
        obtain rfl := Option.some.inj h2
        exact Or.inl ⟨t0, q, r', h0.imp id (fun h => ⟨h.1, h.2.2.2⟩), rfl, h1⟩
      | none =>
        have h2 := b2 hq
        rw [hl] at h2
        obtain rfl := Option.some.inj h2
        by_cases hd : top = true ∧ k = "DEFAULT"
        · obtain ⟨hd1, rfl⟩ := hd
          exact Or.inr ⟨hd1, rfl, h0.imp id (fun h => h.2.2.2)⟩
        · exfalso
          rcases h0 with h0 | ⟨h0, _⟩
          · exact hk ((a3 k).2 (Or.inr ⟨(mem_keys _ _).2 ⟨_, h0⟩, hq, hd⟩))
          · unfold specFor at hq
            rw [if_neg hd] at hq
            cases hx : look p.sub k with
            | none => exact (look_none _ _).1 hx h0
            | some q => rw [hx] at hq; simp at hq
    constructor
    · rintro ⟨u, hr, hn⟩
      cases hr with
      | here =>
        rcases (a3 n).1 hn with ⟨h1, h2, h3, h4⟩ | ⟨h1, h2, h3⟩
        · exact .setting top p s n h1 h2 h3 h4
        · exact .section top p s n h1 h2 h3
      | down _ t _ k path' h1 h2 h3 =>
        rcases hsub k t h1 h2 with ⟨t0, q, r', ht0, hq, hv⟩ | ⟨ht, rfl, hd⟩
        · rcases ht0 with ht0 | ⟨h4, rfl⟩
          · exact .down top p s k t0 q path' n ht0 hq ((ihs k t0 q ht0 hq hv path').1 ⟨u, h3, hn⟩)
          · exact absurd ((ihc k q h4 hq hv path').1 ⟨u, h3, hn⟩) (not_unknown_empty _ _ _ _)
        · exfalso
          have hmem : (path', n) ∈ extraValues t [] := (extra_exact t path' n).2 ⟨u, h3, hn⟩
          rcases hd with hd | rfl
          · rw [fresh ht t hd] at hmem; simp at hmem
          · simp [Sec.empty, extraValues, extraSecs] at hmem
    · intro hu
      cases hu with
      | setting _ _ _ _ h1 h2 h3 h4 => exact ⟨s', .here s', (a3 n).2 (Or.inl ⟨h1, h2, h3, h4⟩)⟩
      | «section» _ _ _ _ h1 h2 h3 => exact ⟨s', .here s', (a3 n).2 (Or.inr ⟨h1, h2, h3⟩)⟩
      | down _ _ _ k t q path' _ h1 h2 h3 =>
        obtain ⟨r', t', hv, hl⟩ := (a2 k t (Or.inl h1)).1 q h2
        obtain ⟨u, hr, hn⟩ := (ihs k t q h1 h2 hv path').2 h3
        refine ⟨u, .down s' t' u k path' (look_mem _ _ _ hl) ?_ hr, hn⟩
        intro hk
        rcases (a3 k).1 hk with ⟨_, h4, _⟩ | ⟨_, h4, _⟩
        · exact names.n6 k h4 ((mem_keys _ _).2 ⟨t, h1⟩)
        · rw [h2] at h4; simp at h4

/-! ## A case, and the defects -/

/-- Checks with a default or none; negative numbers are refused, others are doubled. -/
def demo : Vdt Int (Option Int) String where
  chk c o := match o with
    | none => match c with
      | some d => .ok d
      | none => .error "missing"
    | some v => if v < 0 then .error "negative" else .ok (2 * v)
  isMissing e := e == "missing"
  asSection k := k ++ " is a section"
  asValue k := k ++ " is a value"

/-- A spec: `n` with default 7, a section `a` with `x` and `y`. -/
def demoSpec : Spec (Option Int) := .mk [("n", some 7)] none (.cons "a" (.mk [("x", none), ("y", none)] none .nil .none) .nil) .none

/-- `a` has x = 1 and y = -1; `z` is unknown. -/
def demoCfg : Sec Int := .mk false [("z", 5, false)] (.cons "a" (.mk false [("x", 1, false), ("y", -1, false)] .nil []) .nil) []

theorem demo_result : validate demo false true demoSpec demoCfg =
    some (.node (.cons "n" .tt (.cons "a" (.node (.cons "x" .tt (.cons "y" .ff .nil))) .nil)),
      .mk false [("z", 5, false), ("n", 7, true)] (.cons "a" (.mk false [("x", 2, false), ("y", -1, false)] .nil []) .nil) ["z"]) := by
  rfl

/-- C179.  With `preserve_errors` the message stands for a check that failed, False for a missing setting, which stays missing; a value that was a default is checked as a
missing one again. -/
theorem demo_preserve : validate demo true true (.mk [("m", none), ("n", some 7), ("p", none), ("q", none)] none .nil .none)
      (.mk false [("n", 9, true), ("p", -1, false), ("q", 2, false)] .nil []) =
    some (.node (.cons "m" .ff (.cons "n" .tt (.cons "p" (.err "negative") (.cons "q" .tt .nil)))), .mk false [("n", 7, true), ("p", -1, false), ("q", 4, false)] .nil []) ∧
    validate demo true true (.mk [("m", none)] none .nil .none) (.mk true [] .nil []) = some (.ff, .mk true [] .nil []) ∧
    validate demo true true (.mk [("q", none)] none .nil .none) (.mk false [("q", 2, false)] .nil []) = some (.tt, .mk false [("q", 4, false)] .nil []) :=
  ⟨rfl, rfl, rfl⟩

/-- C180.  The failing setting and the unknown one are found. -/
theorem demo_reports : flattenErrors (.mk false [("z", 5, false), ("n", 7, true)] (.cons "a" (.mk false [("x", 2, false), ("y", -1, false)] .nil []) .nil) ["z"])
      (.node (.cons "n" .tt (.cons "a" (.node (.cons "x" .tt (.cons "y" .ff .nil))) .nil)) : R String) = [(["a"], some "y", .ff)] ∧
    extraValues (.mk false [("z", (5 : Int), false), ("n", 7, true)] (.cons "a" (.mk false [("x", 2, false), ("y", -1, false)] .nil []) .nil) ["z"]) [] = [([], "z")] :=
  ⟨rfl, rfl⟩

/-- C179.  Defect: with everything in sections, one setting that passes and one that fails give False for the whole configuration: which one failed is lost. -/
theorem mixed_lost : ∃ s', validate demo false true (.mk [] none (.cons "a" (.mk [("x", none), ("y", none)] none .nil .none) .nil) .none)
    (.mk false [] (.cons "a" (.mk false [("x", 1, false), ("y", -1, false)] .nil []) .nil) []) = some (.ff, s') ∧
    flattenErrors s' (.ff : R String) = [([], none, .ff)] := ⟨_, rfl, rfl⟩

/-- C179.  Defect: a section where a setting with a default is expected raises AttributeError. -/
theorem default_clobbers : validate demo false true (.mk [("n", some 7)] none .nil .none) (.mk false [] (.cons "n" (.mk false [] .nil []) .nil) []) = none := rfl

/-- C180.  Defect: a value where a section is expected is reported with its name, not with None as the documentation of `flatten_errors` says; a section where a value is
expected is reported with None. -/
theorem value_for_section : ∃ s', validate demo false true (.mk [("n", none), ("m", some 1)] none (.cons "a" (.mk [] none .nil .none) .nil) .none)
    (.mk false [("a", 3, false)] (.cons "n" (.mk false [] .nil []) .nil) []) = some (.node (.cons "n" .ff (.cons "m" .tt (.cons "a" .ff .nil))), s') ∧
    flattenErrors s' (.node (.cons "n" .ff (.cons "m" .tt (.cons "a" .ff .nil))) : R String) = [(["n"], none, .ff), ([], some "a", .ff)] := ⟨_, rfl, rfl⟩

end Verif.ConfigValidate
