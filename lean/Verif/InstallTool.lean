import Mathlib.Data.List.Infix
import Mathlib.Data.List.Basic
import Mathlib.Tactic.Linarith

/-!
# The interactive installation tool (astropysics/config.py 205-218, 428-561) (C205)

A run of `run_install_tool` on any list of lines typed by the user.  What an installation does to the machine, whether it raises, and whether a package is
installed are parameters (`Installer` models `install` itself); printing is left out.
-/

namespace Verif.InstallTool

/-- The machine, as far as the tool asks: `n` packages, which of them have extra information, whether package `k` is installed, and the new machine and
whether an exception was raised after installing package `k` with a prefix. -/
structure Setup (W : Type) where
  n : ℕ
  info : ℕ → Bool
  isInst : W → ℕ → Bool
  inst : W → ℕ → String → W × Bool

/-- `str.strip` of ASCII text. -/
def isSpace (c : Char) : Bool := c = ' ' || c = '\t' || c = '\n' || c = '\r' || c = '\x0b' || c = '\x0c'

def strip (s : List Char) : List Char := ((s.dropWhile isSpace).reverse.dropWhile isSpace).reverse

/-- `int` of a string without surrounding space: an optional sign and at least one digit. -/
def digits (s : List Char) : Option ℕ :=
  if s ≠ [] ∧ s.all Char.isDigit then some (s.foldl (fun v c => 10 * v + (c.toNat - 48)) 0) else none

def pyInt (s : List Char) : Option ℤ := match strip s with
  | '-' :: d => (digits d).map fun v => -(v : ℤ)
  | '+' :: d => (digits d).map fun v => (v : ℤ)
  | d => (digits d).map fun v => (v : ℤ)

/-- What a line asks for, config.py 524-556. -/
inductive Cmd
  | quit
  | all
  | info (k : Option ℤ)
  | pick (k : Option ℤ)
  deriving DecidableEq

def parse (line : String) : Cmd :=
  let l := (strip line.toList).map Char.toLower
  if l = ['q'] then .quit
  else if l = ['a'] then .all
  else match l with
    | 'i' :: rest => .info (pyInt rest)
    | l => .pick (pyInt l)

/-- `pkgs[i]` with Python's negative indices. -/
def pyIndex (n : ℕ) (i : ℤ) : Option ℕ :=
  if 0 ≤ i then (if i < n then some i.toNat else none) else if 0 ≤ n + i then some (n + i).toNat else none

/-- One attempt to install: package and prefix. -/
abbrev Attempt := ℕ × String

/-- The loop over the packages after 'a', config.py 530-536: exceptions are printed and the next package is tried. -/
def installAll {W : Type} (s : Setup W) (pre : String) : List ℕ → W → W × List Attempt
  | [], w => (w, [])
  | k :: ks, w => if s.isInst w k then installAll s pre ks w else
    let r := installAll s pre ks (s.inst w k pre).1
    (r.1, (k, pre) :: r.2)

/-- How the tool ends: the user quits, all packages are installed, the input ends (EOFError), a number out of range (IndexError). -/
inductive End
  | quit
  | done
  | eof
  | index
  deriving DecidableEq

def allInst {W : Type} (s : Setup W) (w : W) : Bool := (List.range s.n).all (s.isInst w)

/-- The tool, config.py 500-561: the lines not read yet, the machine; the result is how it ends, the machine, the attempts and the lines left.  A number out of
range raises IndexError in `pkgs[i].install()`, and again in the handler, which names `pkgs[i]` (config.py 560). -/
def run {W : Type} (s : Setup W) (su : Bool) : List String → W → End × W × List Attempt × List String
  | [], w => if allInst s w then (.done, w, [], []) else (.eof, w, [], [])
  | line :: rest, w => if allInst s w then (.done, w, [], line :: rest) else
    match parse line with
    | .quit => (.quit, w, [], rest)
    | .all =>
      let a := installAll s (if su then "sudo" else "") (List.range s.n) w
      let r := run s su rest a.1
      (r.1, r.2.1, a.2 ++ r.2.2.1, r.2.2.2)
    | .info none => run s su rest w
    | .info (some i) => match pyIndex s.n (i - 1) with
      | none => (.index, w, [], rest)
      | some k => if s.info k then (match rest with
          | [] => (.eof, w, [], [])
          | _ :: rest => run s su rest w) else run s su rest w
    | .pick none => run s su rest w
    | .pick (some i) => match pyIndex s.n (i - 1) with
      | none => (.index, w, [], rest)
      | some k =>
        let r := run s su rest (s.inst w k "").1
        (r.1, r.2.1, (k, "") :: r.2.2.1, r.2.2.2)

/-- The argument `sudo`: a string or another value, taken by its truth. -/
inductive Sudo
  | str (s : String)
  | other (truth : Bool)

/-- config.py 480-495; `auto` is what the platform says: Ubuntu and Mac need it. -/
def sudoFlag (platform : Bool) : Sudo → Bool
  | .str s => if "auto".toList <:+: s.toList then (if "toggle".toList <:+: s.toList then !platform else platform) else s ≠ ""
  | .other b => b

/-- The platform, config.py 483-493: name of the system in lower case and of the distribution. -/
def platformSudo (system dist : String) : Bool :=
  if "linux".toList <:+: system.toList then dist = "ubuntu" else if "mac".toList <:+: system.toList then true else false

/-- The packages of the tool, config.py 430-444: name and whether there is extra information (`_PyfitsInstaller`, config.py 392-399, has none). -/
def packages : List (String × Bool) :=
  [("ipython", false), ("matplotlib", true), ("pyfits", false), ("networkx", false), ("pygraphviz", false), ("pywcs", true), ("Traits", false),
   ("TraitsGUI", true), ("TraitsBackendWX", true), ("TraitsBackendQt", true), ("Chaco", false), ("Mayavi", true)]

/-! ## Specification -/

/-- The package a number stands for: 1 is the first. -/
def Means (n : ℕ) (i : ℤ) (k : ℕ) : Prop := 1 ≤ i ∧ i ≤ n ∧ (k : ℤ) = i - 1

/-- Installations work: afterwards the package is installed and nothing else was removed. -/
def Works {W : Type} (s : Setup W) : Prop := ∀ w k pre, s.isInst (s.inst w k pre).1 k = true ∧ ∀ j, s.isInst w j = true → s.isInst (s.inst w k pre).1 j = true

theorem pyIndex_pos (n : ℕ) (i : ℤ) (k : ℕ) (h : Means n i k) : pyIndex n (i - 1) = some k := by
  obtain ⟨h1, h2, h3⟩ := h
  unfold pyIndex
  rw [if_pos (by omega), if_pos (by omega)]
  congr 1; omega

theorem pyIndex_lt (n : ℕ) (i : ℤ) (k : ℕ) (h : pyIndex n i = some k) : k < n := by
  unfold pyIndex at h
  split_ifs at h <;> injection h <;> omega

theorem pyIndex_none (n : ℕ) (i : ℤ) : pyIndex n i = none ↔ i < -n ∨ (n : ℤ) ≤ i := by
  unfold pyIndex
  split_ifs <;> simp <;> omega

/-! ## What every line does -/

theorem installAll_append {W : Type} (s : Setup W) (pre : String) (a b : List ℕ) (w : W) :
    installAll s pre (a ++ b) w = ((installAll s pre b (installAll s pre a w).1).1, (installAll s pre a w).2 ++ (installAll s pre b (installAll s pre a w).1).2) := by
  induction a generalizing w with
  | nil => rfl
  | cons k a ih =>
    simp only [List.cons_append, installAll]
    split_ifs
    · exact ih w
    · rw [ih]; rfl

/-- C205: 'a' goes through the packages in order and tries exactly those that are not installed when their turn comes, each once, with the prefix; a failure does
not stop it. -/
theorem all_tries {W : Type} (s : Setup W) (pre : String) (a : List ℕ) (k : ℕ) (b : List ℕ) (w : W) :
    let before := installAll s pre a w
    (installAll s pre (a ++ k :: b) w).2 =
      before.2 ++ (if s.isInst before.1 k then (installAll s pre b before.1).2 else (k, pre) :: (installAll s pre b (s.inst before.1 k pre).1).2) := by
  simp only [installAll_append, installAll]
  split_ifs <;> rfl

theorem all_attempts {W : Type} (s : Setup W) (pre : String) (l : List ℕ) (w : W) :
    ((installAll s pre l w).2.map (·.1)).Sublist l ∧ ∀ x ∈ (installAll s pre l w).2, x.2 = pre := by
  induction l generalizing w with
  | nil => simp [installAll]
  | cons k l ih =>
    unfold installAll
    split_ifs
    · exact ⟨(ih w).1.cons _, (ih w).2⟩
    · obtain ⟨h1, h2⟩ := ih (s.inst w k pre).1
      refine ⟨by simpa using h1.cons_cons k, fun x hx => ?_⟩
      rcases List.mem_cons.1 hx with rfl | hx
      · rfl
      · exact h2 x hx

theorem all_keeps {W : Type} (s : Setup W) (hs : Works s) (pre : String) (l : List ℕ) (w : W) :
    (∀ j, s.isInst w j = true → s.isInst (installAll s pre l w).1 j = true) ∧ ∀ k ∈ l, s.isInst (installAll s pre l w).1 k = true := by
  induction l generalizing w with
  | nil => simp [installAll]
  | cons k l ih =>
    unfold installAll
    split_ifs with h
    · refine ⟨(ih w).1, fun j hj => ?_⟩
      rcases List.mem_cons.1 hj with rfl | hj
      · exact (ih w).1 _ h
      · exact (ih w).2 j hj
    · obtain ⟨h1, h2⟩ := ih (s.inst w k pre).1
      refine ⟨fun j hj => h1 j ((hs w k pre).2 j hj), fun j hj => ?_⟩
      rcases List.mem_cons.1 hj with rfl | hj
      · exact h1 _ (hs w _ pre).1
      · exact h2 j hj

/-- C205: if installations work, 'a' ends the tool with everything installed, whatever was typed after it. -/
theorem all_finishes {W : Type} (s : Setup W) (hs : Works s) (su : Bool) (line : String) (rest : List String) (w : W) (hl : parse line = .all)
    (h : allInst s w = false) : (run s su (line :: rest) w).1 = .done ∧ allInst s (run s su (line :: rest) w).2.1 = true ∧
      (run s su (line :: rest) w).2.2.2 = rest := by
  have hall : allInst s (installAll s (if su then "sudo" else "") (List.range s.n) w).1 = true := by
    unfold allInst
    rw [List.all_eq_true]
    exact (all_keeps s hs _ _ w).2
  have hr : ∀ w', allInst s w' = true → run s su rest w' = (.done, w', [], rest) := by
    intro w' hw
    cases rest <;> (unfold run; rw [if_pos hw])
  have he : run s su (line :: rest) w = (.done, (installAll s (if su then "sudo" else "") (List.range s.n) w).1,
      (installAll s (if su then "sudo" else "") (List.range s.n) w).2, rest) := by
    conv_lhs => unfold run
    simp only [h, Bool.false_eq_true, if_false, hl]
    rw [hr _ hall]
    simp
  rw [he]
  exact ⟨rfl, hall, rfl⟩

/-- C205: a number from 1 to the number of packages tries this package, installed or not, without the prefix; then the list is shown again. -/
theorem pick_tries {W : Type} (s : Setup W) (su : Bool) (line : String) (rest : List String) (w : W) (i : ℤ) (k : ℕ) (hl : parse line = .pick (some i))
    (hk : Means s.n i k) (h : allInst s w = false) :
    run s su (line :: rest) w = ((run s su rest (s.inst w k "").1).1, (run s su rest (s.inst w k "").1).2.1,
      (k, "") :: (run s su rest (s.inst w k "").1).2.2.1, (run s su rest (s.inst w k "").1).2.2.2) := by
  conv_lhs => unfold run
  simp only [h, Bool.false_eq_true, if_false, hl, pyIndex_pos _ _ _ hk]

/-- C205, limit: zero is the last package, and negative numbers count on from there. -/
theorem pick_from_the_end {W : Type} (s : Setup W) (su : Bool) (line : String) (rest : List String) (w : W) (i : ℤ) (hl : parse line = .pick (some i))
    (hi : i ≤ 0) (hi' : -(s.n : ℤ) < i) (h : allInst s w = false) :
    (run s su (line :: rest) w).2.2.1.head? = some ((s.n + i - 1).toNat, "") := by
  unfold run
  have : pyIndex s.n (i - 1) = some (s.n + i - 1).toNat := by
    unfold pyIndex; rw [if_neg (by omega), if_pos (by omega)]; congr 2; omega
  simp only [h, Bool.false_eq_true, if_false, hl, this]
  rfl

/-- C205, limit: any other number, after 'i' or alone, ends the tool with IndexError. -/
theorem out_of_range {W : Type} (s : Setup W) (su : Bool) (line : String) (rest : List String) (w : W) (i : ℤ)
    (hl : parse line = .pick (some i) ∨ parse line = .info (some i)) (hi : i ≤ -(s.n : ℤ) ∨ (s.n : ℤ) < i) (h : allInst s w = false) :
    run s su (line :: rest) w = (.index, w, [], rest) := by
  have hn := (pyIndex_none s.n (i - 1)).2 (by omega)
  unfold run
  rcases hl with hl | hl <;> simp only [h, Bool.false_eq_true, if_false, hl, hn]

/-- C205: a line that is no number, and information about a package, change nothing; after the information the next line typed is swallowed. -/
theorem harmless {W : Type} (s : Setup W) (su : Bool) (line : String) (rest : List String) (w : W) (h : allInst s w = false) :
    (parse line = .pick none ∨ parse line = .info none → run s su (line :: rest) w = run s su rest w) ∧
    ∀ i k, parse line = .info (some i) → Means s.n i k →
      (s.info k = false → run s su (line :: rest) w = run s su rest w) ∧
      (s.info k = true → ∀ x more, rest = x :: more → run s su (line :: rest) w = run s su more w) := by
  refine ⟨?_, fun i k hl hk => ⟨fun hi => ?_, fun hi x more hr => ?_⟩⟩
  · rintro (hl | hl) <;> (conv_lhs => unfold run) <;> simp only [h, Bool.false_eq_true, if_false, hl]
  · conv_lhs => unfold run
    simp only [h, Bool.false_eq_true, if_false, hl, pyIndex_pos _ _ _ hk, hi]
  · subst hr
    conv_lhs => unfold run
    simp only [h, Bool.false_eq_true, if_false, hl, pyIndex_pos _ _ _ hk, hi, if_true]

/-- C205: 'q' quits without doing anything. -/
theorem quits {W : Type} (s : Setup W) (su : Bool) (line : String) (rest : List String) (w : W) (h : allInst s w = false) (hl : parse line = .quit) :
    run s su (line :: rest) w = (.quit, w, [], rest) := by
  unfold run
  simp only [h, Bool.false_eq_true, if_false, hl]

/-! ## Whole sessions -/

/-- The machine after a list of attempts. -/
def after {W : Type} (s : Setup W) (w : W) (l : List Attempt) : W := l.foldl (fun w a => (s.inst w a.1 a.2).1) w

theorem installAll_after {W : Type} (s : Setup W) (pre : String) (l : List ℕ) (w : W) : (installAll s pre l w).1 = after s w (installAll s pre l w).2 := by
  induction l generalizing w with
  | nil => rfl
  | cons k l ih =>
    unfold installAll
    split_ifs
    · exact ih w
    · rw [after, List.foldl_cons]; exact ih _

/-- A session that ended: only packages of the list were tried, the prefix was "sudo" only if it was asked for and 'a' was typed; the machine is changed by the
attempts alone; the lines left are the end of the lines typed; the tool said that nothing is left to do only when all is installed, and, unless it was quit or
failed for a number, whenever all is installed; it only waited in vain for input when all lines were read. -/
structure Session {W : Type} (s : Setup W) (su : Bool) (lines : List String) (w : W) (e : End) (w' : W) (tried : List Attempt) (left : List String) : Prop where
  packages : ∀ x ∈ tried, x.1 < s.n ∧ (x.2 = "" ∨ x.2 = "sudo" ∧ su = true ∧ ∃ l ∈ lines, parse l = .all)
  machine : w' = after s w tried
  rest : left <:+ lines
  done : e = .done ↔ (∀ k, k < s.n → s.isInst w' k = true) ∧ e ≠ .quit ∧ e ≠ .index
  eof : e = .eof → left = []

theorem allInst_iff {W : Type} (s : Setup W) (w : W) : allInst s w = true ↔ ∀ k, k < s.n → s.isInst w k = true := by
  simp [allInst, List.all_eq_true]

/-- C205: every session, on every input. -/
theorem session {W : Type} (s : Setup W) (su : Bool) (lines : List String) (w : W) :
    Session s su lines w (run s su lines w).1 (run s su lines w).2.1 (run s su lines w).2.2.1 (run s su lines w).2.2.2 := by
  induction hn : lines.length using Nat.strong_induction_on generalizing lines w with
  | _ N ih =>
    have base : ∀ (e : End) (left : List String), left <:+ lines → (e = .done ↔ allInst s w = true ∧ e ≠ .quit ∧ e ≠ .index) → (e = .eof → left = []) →
        run s su lines w = (e, w, [], left) → 
        Session s su lines w (run s su lines w).1 (run s su lines w).2.1 (run s su lines w).2.2.1 (run s su lines w).2.2.2 := fun e left h1 h2 h3 heq => by
      rw [heq]
      exact ⟨by simp, rfl, h1, by rw [h2, allInst_iff], h3⟩
    -- a step that does some attempts and goes on
    have step : ∀ (at_ : List Attempt) (w' : W) (rest' : List String), rest' <:+ lines → rest'.length < lines.length →
        (∀ x ∈ at_, x.1 < s.n ∧ (x.2 = "" ∨ x.2 = "sudo" ∧ su = true ∧ ∃ l ∈ lines, parse l = .all)) → w' = after s w at_ →
        run s su lines w = ((run s su rest' w').1, (run s su rest' w').2.1, at_ ++ (run s su rest' w').2.2.1, (run s su rest' w').2.2.2) →
        Session s su lines w (run s su lines w).1 (run s su lines w).2.1 (run s su lines w).2.2.1 (run s su lines w).2.2.2 :=
      fun at_ w' rest' h1 h2 h3 h4 heq => by
        obtain ⟨i1, i2, i3, i4, i5⟩ := ih rest'.length (by omega) rest' w' rfl
        rw [heq]
        refine ⟨fun x hx => ?_, ?_, i3.trans h1, i4, i5⟩
        · rcases List.mem_append.1 hx with hx | hx
          · exact h3 x hx
          · obtain ⟨j1, j2⟩ := i1 x hx
            exact ⟨j1, j2.imp id fun ⟨a, b, l, hl, hp⟩ => ⟨a, b, l, h1.subset hl, hp⟩⟩
        · dsimp only
          rw [i2, h4, after, after, after, List.foldl_append]
    cases lines with
    | nil =>
      by_cases h : allInst s w = true
      · exact base .done [] (List.suffix_refl _) (by simp [h]) (by simp) (by unfold run; simp [h])
      · exact base .eof [] (List.suffix_refl _) (by simp [h]) (by simp) (by unfold run; simp [h])
    | cons line rest =>
      by_cases h : allInst s w = true
      · exact base .done (line :: rest) (List.suffix_refl _) (by simp [h]) (by simp) (by unfold run; simp [h])
      have h' : allInst s w = false := by simpa using h
      have suf : rest <:+ line :: rest := List.suffix_cons _ _
      cases hp : parse line with
      | quit => exact base .quit rest suf (by simp) (by simp) (quits s su line rest w h' hp)
      | all =>
        refine step _ _ rest suf (by simp) (fun x hx => ?_) (installAll_after s (if su then "sudo" else "") (List.range s.n) w) ?_
        · obtain ⟨a1, a2⟩ := all_attempts s (if su then "sudo" else "") (List.range s.n) w
          refine ⟨List.mem_range.1 (a1.subset (List.mem_map_of_mem hx)), ?_⟩
          rw [a2 x hx]
          cases su
          · exact .inl rfl
          · exact .inr ⟨rfl, rfl, line, by simp, hp⟩
        · conv_lhs => unfold run
          simp only [h', Bool.false_eq_true, if_false, hp]
      | info o =>
        cases o with
        | none => exact step [] w rest suf (by simp) (by simp) rfl (by conv_lhs => unfold run
                                                                       simp only [h', Bool.false_eq_true, if_false, hp, List.nil_append])
        | some i =>
          cases hi : pyIndex s.n (i - 1) with
          | none => exact base .index rest suf (by simp) (by simp) (by unfold run; simp only [h', Bool.false_eq_true, if_false, hp, hi])
          | some k =>
            by_cases hk : s.info k = true
            · cases rest with
              | nil => exact base .eof [] (List.nil_suffix) (by simp [h]) (by simp) (by unfold run; simp only [h', Bool.false_eq_true, if_false, hp, hi, hk, if_true])
              | cons x more =>
                exact step [] w more ((List.suffix_cons x more).trans suf) (by simp; omega) (by simp) rfl (by
                  conv_lhs => unfold run
                  simp only [h', Bool.false_eq_true, if_false, hp, hi, hk, if_true, List.nil_append])
            · exact step [] w rest suf (by simp) (by simp) rfl (by
                conv_lhs => unfold run
                simp only [h', Bool.false_eq_true, if_false, hp, hi, hk, List.nil_append])
      | pick o =>
        cases o with
        | none => exact step [] w rest suf (by simp) (by simp) rfl (by conv_lhs => unfold run
                                                                       simp only [h', Bool.false_eq_true, if_false, hp, List.nil_append])
        | some i =>
          cases hi : pyIndex s.n (i - 1) with
          | none => exact base .index rest suf (by simp) (by simp) (by unfold run; simp only [h', Bool.false_eq_true, if_false, hp, hi])
          | some k =>
            refine step [(k, "")] (s.inst w k "").1 rest suf (by simp) ?_ rfl (by
              conv_lhs => unfold run
              simp only [h', Bool.false_eq_true, if_false, hp, hi, List.singleton_append])
            intro x hx
            rw [List.mem_singleton] at hx
            subst hx
            exact ⟨pyIndex_lt _ _ _ hi, .inl rfl⟩

/-- C205: with everything installed the tool ends at once: nothing is read and nothing is tried. -/
theorem nothing_to_do {W : Type} (s : Setup W) (su : Bool) (lines : List String) (w : W) (h : ∀ k, k < s.n → s.isInst w k = true) :
    run s su lines w = (.done, w, [], lines) := by
  have := (allInst_iff s w).2 h
  cases lines <;> (unfold run; rw [if_pos this])

/-! ## The prefix -/

/-- C205: True and False as they are; 'auto' asks the platform, 'toggleauto' means the opposite. -/
theorem sudo_argument (platform : Bool) : sudoFlag platform (.other true) = true ∧ sudoFlag platform (.other false) = false ∧
    sudoFlag platform (.str "auto") = platform ∧ sudoFlag platform (.str "toggleauto") = !platform := by
  refine ⟨rfl, rfl, ?_, ?_⟩ <;> simp only [sudoFlag] <;> [rw [if_pos (by decide), if_neg (by decide)]; rw [if_pos (by decide), if_pos (by decide)]]

/-- C205, limit: the name of a Mac system is "Darwin", so the prefix is never chosen there; of all systems only Ubuntu gets it, and only because the name of the
distribution is compared whole. -/
theorem platforms (dist : String) : (platformSudo "linux" dist = true ↔ dist = "ubuntu") ∧ platformSudo "darwin" dist = false := by
  refine ⟨?_, ?_⟩
  · unfold platformSudo
    rw [if_pos (by decide), decide_eq_true_eq]
  · unfold platformSudo
    rw [if_neg (by decide), if_neg (by decide)]

/-! ## What the user types -/

/-- White space, as its characters. -/
def Blank (l : List Char) : Prop := ∀ c ∈ l, c = ' ' ∨ c = '\t' ∨ c = '\n' ∨ c = '\r' ∨ c = '\x0b' ∨ c = '\x0c'

theorem blank_iff (l : List Char) : Blank l ↔ ∀ c ∈ l, isSpace c = true := by
  simp [Blank, isSpace, or_assoc]

theorem dropWhile_blank (a t : List Char) (ha : Blank a) (ht : ∀ c r, t = c :: r → isSpace c = false) : (a ++ t).dropWhile isSpace = t := by
  rw [blank_iff] at ha
  induction a with
  | nil =>
    cases t with
    | nil => rfl
    | cons c r => simp [ht c r rfl]
  | cons x a ih => simp [ha x (by simp), ih fun c hc => ha c (by simp [hc])]

theorem strip_blank (a t b : List Char) (ha : Blank a) (hb : Blank b) (h1 : ∀ c r, t = c :: r → isSpace c = false)
    (h2 : ∀ c r, t = r ++ [c] → isSpace c = false) : strip (a ++ t ++ b) = t := by
  unfold strip
  by_cases hne : t = []
  · subst hne
    have hab : ∀ l : List Char, Blank l → l.dropWhile isSpace = [] := fun l hl => by
      simpa using dropWhile_blank l [] hl (by simp)
    rw [List.append_nil, hab (a ++ b) (by intro c hc; rcases List.mem_append.1 hc with h | h; exacts [ha c h, hb c h])]
    rfl
  · have e1 : (a ++ t ++ b).dropWhile isSpace = t ++ b := by
      rw [List.append_assoc]
      refine dropWhile_blank a (t ++ b) ha fun c r h => ?_
      cases t with
      | nil => exact absurd rfl hne
      | cons x t =>
        simp only [List.cons_append, List.cons.injEq] at h
        obtain ⟨rfl, -⟩ := h
        exact h1 x t rfl
    rw [e1, List.reverse_append]
    rw [dropWhile_blank b.reverse t.reverse (fun c hc => hb c (by simpa using hc))]
    · simp
    · intro c r h
      exact h2 c r.reverse (by rw [← List.reverse_reverse t, h]; simp)

theorem of_mem_takeWhile (l : List Char) (c : Char) (h : c ∈ l.takeWhile isSpace) : isSpace c = true := by
  induction l with
  | nil => simp at h
  | cons x l ih =>
    rw [List.takeWhile_cons] at h
    split_ifs at h with hx
    · rcases List.mem_cons.1 h with rfl | h
      · exact hx
      · exact ih h
    · simp at h

theorem strip_cut (s : List Char) : ∃ a b, Blank a ∧ Blank b ∧ s = a ++ strip s ++ b := by
  refine ⟨s.takeWhile isSpace, ((s.dropWhile isSpace).reverse.takeWhile isSpace).reverse, ?_, ?_, ?_⟩
  · rw [blank_iff]; exact fun c hc => of_mem_takeWhile _ c hc
  · rw [blank_iff]; exact fun c hc => of_mem_takeWhile _ c (List.mem_reverse.1 hc)
  · unfold strip
    rw [List.append_assoc, ← List.reverse_append, List.takeWhile_append_dropWhile, List.reverse_reverse, List.takeWhile_append_dropWhile]

theorem lower_one (c x : Char) (hx : x = 'q' ∨ x = 'a' ∨ x = 'i' ∨ x = 'y' ∨ x = 'n') : c.toLower = x ↔ c = x ∨ c = x.toUpper := by
  constructor
  · intro h
    unfold Char.toLower at h
    split_ifs at h with hc
    · right
      have hv : c.val.toNat = x.val.toNat - 32 := by
        have := congrArg (fun c : Char => c.val.toNat) h
        simp only at this
        have h1 : c.val.toNat ≥ 65 := hc.1
        have h2 : c.val.toNat ≤ 90 := hc.2
        rw [UInt32.toNat_add] at this
        have h3 : (32 : UInt32).toNat = 32 := rfl
        rw [show ('a'.val - 'A'.val : UInt32).toNat = 32 from rfl] at this
        omega
      apply Char.ext
      apply UInt32.toNat_inj.1
      rcases hx with rfl | rfl | rfl | rfl | rfl <;> rw [hv] <;> rfl
    · exact .inl h
  · rcases hx with rfl | rfl | rfl | rfl | rfl <;> rintro (rfl | rfl) <;> decide

/-- C205: a line asks to quit exactly if it is a q, small or capital, with white space around it; to install all exactly if it is such an a. -/
theorem letters (line : String) :
    (parse line = .quit ↔ ∃ a b c, line.toList = a ++ [c] ++ b ∧ Blank a ∧ Blank b ∧ (c = 'q' ∨ c = 'Q')) ∧
    (parse line = .all ↔ ∃ a b c, line.toList = a ++ [c] ++ b ∧ Blank a ∧ Blank b ∧ (c = 'a' ∨ c = 'A')) := by
  have key : ∀ x : Char, x = 'q' ∨ x = 'a' → ((strip line.toList).map Char.toLower = [x] ↔
      ∃ a b c, line.toList = a ++ [c] ++ b ∧ Blank a ∧ Blank b ∧ (c = x ∨ c = x.toUpper)) := by
    intro x hx
    constructor
    · intro h
      obtain ⟨a, b, ha, hb, e⟩ := strip_cut line.toList
      obtain ⟨c, hc, hcx⟩ := List.map_eq_singleton_iff.1 h
      rw [hc] at e
      exact ⟨a, b, c, e, ha, hb, (lower_one c x (by tauto)).1 hcx⟩
    · rintro ⟨a, b, c, e, ha, hb, hc⟩
      have hsp : isSpace c = false := by
        rcases hx with rfl | rfl <;> rcases hc with rfl | rfl <;> decide
      rw [e, strip_blank a [c] b ha hb]
      · rw [List.map_singleton, (lower_one c x (by tauto)).2 hc]
      · intro c' r h; simp only [List.cons.injEq] at h; rw [← h.1]; exact hsp
      · intro c' r h
        have := congrArg List.getLast? h
        simp only [List.getLast?_singleton, List.getLast?_append, List.getLast?_singleton, Option.some_or, Option.some.injEq] at this
        rw [← this]; exact hsp
  have kq := key 'q' (by simp)
  have ka := key 'a' (by simp)
  constructor
  · rw [show ('Q' : Char) = Char.toUpper 'q' by decide, ← kq]
    unfold parse
    simp only
    split_ifs with h1 h2
    · simp [h1]
    · simp [h1]
    · split <;> simp [h1]
  · rw [show ('A' : Char) = Char.toUpper 'a' by decide, ← ka]
    unfold parse
    simp only
    split_ifs with h1 h2
    · simp [h1]
    · simp [h2]
    · split <;> simp [h2]

theorem digit_facts (c : Char) (hc : c.isDigit = true) : isSpace c = false ∧ c.toLower = c ∧ c ≠ 'q' ∧ c ≠ 'a' ∧ c ≠ 'i' ∧ c ≠ '-' ∧ c ≠ '+' := by
  have hc' : 48 ≤ c.val.toNat ∧ c.val.toNat ≤ 57 := by
    unfold Char.isDigit at hc
    simp only [Bool.and_eq_true, decide_eq_true_eq] at hc
    exact ⟨hc.1, hc.2⟩
  have ne : ∀ x : Char, x.val.toNat < 48 ∨ 57 < x.val.toNat → c ≠ x := by
    rintro x hx rfl; omega
  refine ⟨?_, ?_, ne _ (by decide), ne _ (by decide), ne _ (by decide), ne _ (by decide), ne _ (by decide)⟩
  · simp [isSpace, ne ' ' (by decide), ne '\t' (by decide), ne '\n' (by decide), ne '\r' (by decide), ne '\x0b' (by decide), ne '\x0c' (by decide)]
  · unfold Char.toLower
    rw [dif_neg]
    rintro ⟨h, -⟩
    have : 65 ≤ c.val.toNat := h
    omega

/-- The value of digits. -/
theorem digits_value (d : List Char) (hne : d ≠ []) (hd : ∀ c ∈ d, c.isDigit = true) : digits d = some (Nat.ofDigitChars 10 d 0) := by
  unfold digits
  rw [if_pos ⟨hne, by simpa using hd⟩]
  rfl

/-- C205: the decimal digits of a number, with white space around them, ask for the package of that number; with an i or I before them for information about it. -/
theorem numbers (a b : List Char) (ha : Blank a) (hb : Blank b) (n : ℕ) (x : Char) (hx : x = 'i' ∨ x = 'I') :
    parse (String.ofList (a ++ Nat.toDigits 10 n ++ b)) = .pick (some n) ∧ parse (String.ofList (a ++ (x :: Nat.toDigits 10 n) ++ b)) = .info (some n) := by
  have hd : ∀ c ∈ Nat.toDigits 10 n, c.isDigit = true := fun c hc => Nat.isDigit_of_mem_toDigits (by decide) (by decide) hc
  have hne : Nat.toDigits 10 n ≠ [] := by
    intro h; have := Nat.length_toDigits_pos (b := 10) (n := n); rw [h] at this; simp at this
  have hval : Nat.ofDigitChars 10 (Nat.toDigits 10 n) 0 = n := Nat.ofDigitChars_toDigits (by decide) (by decide)
  generalize Nat.toDigits 10 n = d at hd hne hval
  have hlow : d.map Char.toLower = d := by
    rw [List.map_congr_left fun c hc => (digit_facts c (hd c hc)).2.1]; simp
  have hend : ∀ c r, d = r ++ [c] → isSpace c = false := fun c r h => (digit_facts c (hd c (by rw [h]; simp))).1
  have hint : pyInt d = some (n : ℤ) := by
    unfold pyInt
    have e := strip_blank [] d [] (by simp [Blank]) (by simp [Blank]) (fun c r h => (digit_facts c (hd c (by rw [h]; simp))).1) hend
    simp only [List.nil_append, List.append_nil] at e
    rw [e]
    cases d with
    | nil => exact absurd rfl hne
    | cons c r =>
      obtain ⟨-, -, -, -, -, h1, h2⟩ := digit_facts c (hd c (by simp))
      split
      · rename_i h; simp only [List.cons.injEq] at h; exact absurd h.1 h1
      · rename_i h; simp only [List.cons.injEq] at h; exact absurd h.1 h2
      · rw [digits_value _ hne hd, hval]; rfl
  constructor
  · unfold parse
    simp only [String.toList_ofList]
    rw [strip_blank a d b ha hb (fun c r h => (digit_facts c (hd c (by rw [h]; simp))).1) hend, hlow]
    cases d with
    | nil => exact absurd rfl hne
    | cons c r =>
      obtain ⟨-, -, h1, h2, h3, -, -⟩ := digit_facts c (hd c (by simp))
      rw [if_neg (by simp [h1]), if_neg (by simp [h2])]
      split
      · rename_i h; simp only [List.cons.injEq] at h; exact absurd h.1 h3
      · rw [hint]
  · unfold parse
    simp only [String.toList_ofList]
    have hxs : isSpace x = false := by rcases hx with rfl | rfl <;> decide
    have hxl : x.toLower = 'i' := by rcases hx with rfl | rfl <;> decide
    rw [strip_blank a (x :: d) b ha hb (fun c r h => by simp only [List.cons.injEq] at h; rw [← h.1]; exact hxs), List.map_cons, hlow, hxl]
    · rw [if_neg (by simp), if_neg (by simp)]
      simp only [hint]
    · intro c r h
      cases r with
      | nil =>
        simp only [List.nil_append, List.cons.injEq] at h
        exact absurd h.2 hne
      | cons y r =>
        simp only [List.cons_append, List.cons.injEq] at h
        exact hend c r h.2

/-- C205: a line without digits asks for nothing, unless it is one of the two letters. -/
theorem no_digits (line : String) (h : ∀ c ∈ line.toList, c.isDigit = false) :
    parse line = .quit ∨ parse line = .all ∨ parse line = .info none ∨ parse line = .pick none := by
  have hl : ∀ c ∈ (strip line.toList).map Char.toLower, c.isDigit = false := by
    intro c hc
    obtain ⟨y, hy, rfl⟩ := List.mem_map.1 hc
    obtain ⟨a, b, -, -, e⟩ := strip_cut line.toList
    have hyd := h y (by rw [e]; simp [hy])
    unfold Char.toLower
    split_ifs with hu
    · unfold Char.isDigit
      simp only [Bool.and_eq_false_iff, decide_eq_false_iff_not]
      right
      have h1 : 65 ≤ y.val.toNat := hu.1
      have h2 : y.val.toNat ≤ 90 := hu.2
      intro hle
      have hle : (y.val + ('a'.val - 'A'.val)).toNat ≤ 57 := hle
      rw [UInt32.toNat_add, show ('a'.val - 'A'.val : UInt32).toNat = 32 from rfl] at hle
      omega
    · exact hyd
  have hdig : ∀ d : List Char, (∀ c ∈ d, c.isDigit = false) → digits d = none := by
    intro d hd
    unfold digits
    rw [if_neg]
    rintro ⟨hne, hall⟩
    cases d with
    | nil => exact hne rfl
    | cons c r =>
      rw [List.all_eq_true] at hall
      exact absurd (hall c (by simp)) (by simp [hd c (by simp)])
  have hint : ∀ d : List Char, (∀ c ∈ d, c.isDigit = false) → pyInt d = none := by
    intro d hd
    unfold pyInt
    have hs : ∀ c ∈ strip d, c.isDigit = false := by
      intro c hc
      obtain ⟨a, b, -, -, e⟩ := strip_cut d
      exact hd c (by rw [e]; simp [hc])
    split
    · rename_i e; rw [hdig _ fun c hc => hs c (by rw [e]; simp [hc])]; rfl
    · rename_i e; rw [hdig _ fun c hc => hs c (by rw [e]; simp [hc])]; rfl
    · rw [hdig _ hs]; rfl
  unfold parse
  simp only
  split_ifs with h1 h2
  · simp
  · simp
  · split
    · rename_i rest e
      rw [hint _ fun c hc => hl c (by rw [e]; simp [hc])]; simp
    · rw [hint _ hl]; simp

/-! ## An instance -/

/-- A machine that remembers what is installed; package 1 always fails. -/
def toy : Setup (List ℕ) where
  n := 3
  info := fun k => k = 2
  isInst := fun w k => k ∈ w
  inst := fun w k _ => if k = 1 then (w, true) else (k :: w, false)

example : run toy true ["i3", "x", " A ", "2", "q", "a"] [] = (.quit, [2, 0], [(0, "sudo"), (1, "sudo"), (2, "sudo"), (1, "")], ["a"]) := by decide +kernel

example : run toy true ["0", "7", "a"] [] = (.index, [2], [(2, "")], ["a"]) := by decide +kernel

/-- A machine on which installations work. -/
example : ∃ s : Setup (List ℕ), Works s ∧ allInst s [] = false :=
  ⟨⟨2, fun _ => false, fun w k => k ∈ w, fun w k _ => (k :: w, false)⟩, fun w k pre => by simp +contextual, by decide⟩

example : parse " Q\n" = .quit ∧ parse "I 12" = .info (some 12) ∧ parse "-3" = .pick (some (-3)) ∧ parse "abc" = .pick none ∧ packages.length = 12 := by
  decide +kernel

end Verif.InstallTool
