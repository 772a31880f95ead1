import Mathlib.Data.List.Basic
import Mathlib.Data.Nat.Digits.Defs
import Mathlib.Data.List.Count

/-!
# The version string (astropysics/version.py 115-172) (C223)

`_get_git_devstr` and `version`.  Git is a parameter: it could not be run, or it ended with a code and wrote something.
-/

namespace Verif.VersionStr

abbrev Text := List Char

/-- Running `git rev-list HEAD` (version.py:148-153). -/
inductive Git
  | notRun
  | ran (code : ℤ) (out : Text)

inductive Err
  | value
  deriving DecidableEq

/-- `str(n)`. -/
def num (n : ℕ) : Text := Nat.toDigits 10 n

/-- `_get_git_devstr(sha)` (version.py:133-171). -/
def devstr (release sha : Bool) (g : Git) : Except Err Text :=
  if release then .error .value
  else match g with
    | .notRun => .ok "dev".toList
    | .ran code out =>
      if code = 128 then .ok "dev".toList
      else if code ≠ 0 then .ok "dev".toList
      else if sha then .ok ("dev-git-".toList ++ out.take 40)
      else .ok ("dev-r".toList ++ num (out.count '\n'))

/-- `version` (version.py:175-178). -/
def version (major minor bugfix : ℕ) (dev : Bool) (ds : Text) : Text :=
  num major ++ ['.'] ++ num minor ++ (if bugfix ≠ 0 then ['.'] ++ num bugfix else []) ++ (if dev then ['.'] ++ ds else [])

/-- What git prints for a history, newest first: one name a line. -/
def revList (history : List Text) : Text := history.flatMap fun h => h ++ ['\n']

/-! ## Theorems -/

theorem count_revList (history : List Text) (h : ∀ x ∈ history, '\n' ∉ x) : (revList history).count '\n' = history.length := by
  induction history with
  | nil => rfl
  | cons a l ih =>
    have h1 : a.count '\n' = 0 := List.count_eq_zero.2 (h a List.mem_cons_self)
    have h2 := ih fun x hx => h x (List.mem_cons_of_mem _ hx)
    simp only [revList] at h2
    simp [revList, h1, h2, Nat.add_comm]

/-- **C223.** In a repository the number is exactly the number of commits, and the name that of the newest commit; where git cannot tell there is just `dev`;
a release has none. -/
theorem devstr_spec (history : List Text) (hl : ∀ x ∈ history, x.length = 40 ∧ '\n' ∉ x) (sha : Bool) :
    devstr false false (.ran 0 (revList history)) = .ok ("dev-r".toList ++ Nat.toDigits 10 history.length) ∧
    (∀ a l, history = a :: l → devstr false true (.ran 0 (revList history)) = .ok ("dev-git-".toList ++ a)) ∧
    devstr false sha .notRun = .ok "dev".toList ∧
    (∀ code out, code ≠ 0 → devstr false sha (.ran code out) = .ok "dev".toList) ∧
    ∀ g, devstr true sha g = .error .value := by
  refine ⟨?_, ?_, rfl, ?_, fun g => rfl⟩
  · simp [devstr, num, count_revList history fun x hx => (hl x hx).2]
  · rintro a l rfl
    have : a.length = 40 := (hl a List.mem_cons_self).1
    simp [devstr, revList, List.take_append, this, List.take_of_length_le]
  · intro code out h
    simp only [devstr, Bool.false_eq_true, if_false]
    split
    · rfl
    · simp [h]

theorem num_no_dot (n : ℕ) : ∀ c ∈ num n, c.isDigit = true := fun c hc => Nat.isDigit_of_mem_toDigits (by decide) (by decide) hc

theorem num_inj {a b : ℕ} (h : num a = num b) : a = b := by
  have := congrArg (fun l => Nat.ofDigitChars 10 l 0) h
  simpa only [num, Nat.ofDigitChars_toDigits (show 1 < 10 by decide) (show 10 ≤ 10 by decide)] using this

/-- Cutting at the first character that is no digit. -/
theorem cut {a b : ℕ} {r s : Text} (hr : ∀ c t, r = c :: t → c.isDigit = false) (hs : ∀ c t, s = c :: t → c.isDigit = false)
    (h : num a ++ r = num b ++ s) : a = b ∧ r = s := by
  have take : ∀ (n : ℕ) (r : Text), (∀ c t, r = c :: t → c.isDigit = false) → (num n ++ r).takeWhile Char.isDigit = num n := by
    intro n r hr
    rw [List.takeWhile_append_of_pos (num_no_dot n)]
    cases r with
    | nil => simp
    | cons c t => simp [List.takeWhile_cons, hr c t rfl]
  have e := congrArg (List.takeWhile Char.isDigit) h
  rw [take a r hr, take b s hs] at e
  have hab := num_inj e
  subst hab
  exact ⟨rfl, List.append_cancel_left h⟩

theorem rest_head (bugfix : ℕ) (dev : Bool) (ds : Text) : ∀ c t,
    (if bugfix ≠ 0 then ['.'] ++ num bugfix else []) ++ (if dev = true then ['.'] ++ ds else []) = c :: t → c.isDigit = false := by
  intro c t h
  by_cases hb : bugfix = 0
  · subst hb
    cases dev with
    | false => simp at h
    | true => simp only [ne_eq, not_true_eq_false, if_false, if_true, List.nil_append, List.cons_append, List.cons.injEq] at h; rw [← h.1]; decide
  · rw [if_pos hb] at h
    simp only [List.cons_append, List.cons.injEq] at h; rw [← h.1]; decide

/-- **C223.** Versions never share a string: equal release strings mean equal numbers, and a development string (as `devstr` makes them, not starting with
a digit) equals another only for equal numbers and suffixes, and never a release. -/
theorem version_injective (a b c a' b' c' : ℕ) (dev dev' : Bool) (ds ds' : Text)
    (hd : ∃ t, ds = 'd' :: t) (hd' : ∃ t, ds' = 'd' :: t)
    (h : version a b c dev ds = version a' b' c' dev' ds') : a = a' ∧ b = b' ∧ c = c' ∧ dev = dev' ∧ (dev = true → ds = ds') := by
  unfold version at h
  have dot : ∀ (x : Text) c t, ['.'] ++ x = c :: t → c.isDigit = false := by
    intro x c t h; simp only [List.cons_append, List.cons.injEq] at h; rw [← h.1]; decide
  rw [show ∀ (m n : ℕ) (x y : Text), num m ++ ['.'] ++ num n ++ x ++ y = num m ++ (['.'] ++ (num n ++ (x ++ y))) by intros; simp [List.append_assoc],
    show ∀ (m n : ℕ) (x y : Text), num m ++ ['.'] ++ num n ++ x ++ y = num m ++ (['.'] ++ (num n ++ (x ++ y))) by intros; simp [List.append_assoc]] at h
  obtain ⟨h1, h⟩ := cut (dot _) (dot _) h
  obtain ⟨h2, h⟩ := cut (rest_head _ _ _) (rest_head _ _ _) (List.append_cancel_left h)
  refine ⟨h1, h2, ?_⟩
  have tail : ∀ (dev : Bool) (ds : Text) c t, (if dev = true then ['.'] ++ ds else []) = c :: t → c.isDigit = false := by
    intro dev ds c t h
    cases dev with
    | false => simp at h
    | true => exact dot ds c t (by simpa using h)
  have tail_eq : ∀ (dev dev' : Bool), (if dev = true then ['.'] ++ ds else []) = (if dev' = true then ['.'] ++ ds' else []) → dev = dev' ∧ (dev = true → ds = ds') := by
    intro dev dev' h
    cases dev <;> cases dev' <;> simp_all
  obtain ⟨t, rfl⟩ := hd
  obtain ⟨t', rfl⟩ := hd'
  have digit : ∀ (n : ℕ), ∃ x y, num n = x :: y ∧ x.isDigit = true := by
    intro n
    cases hn : num n with
    | nil => exact absurd hn (by simpa [num] using (List.length_pos_iff.1 (Nat.length_toDigits_pos (b := 10) (n := n))))
    | cons x y => exact ⟨x, y, rfl, num_no_dot n x (by rw [hn]; exact List.mem_cons_self)⟩
  by_cases hc : c = 0 <;> by_cases hc' : c' = 0
  · subst hc hc'
    simp only [ne_eq, not_true_eq_false, if_false, List.nil_append] at h
    exact ⟨rfl, tail_eq _ _ h⟩
  · exfalso
    subst hc
    obtain ⟨x, y, hx, hxd⟩ := digit c'
    rw [if_pos hc', hx] at h
    cases dev <;> simp at h
    rw [← h.1] at hxd
    exact absurd hxd (by decide)
  · exfalso
    subst hc'
    obtain ⟨x, y, hx, hxd⟩ := digit c
    rw [if_pos hc, hx] at h
    cases dev' <;> simp at h
    rw [h.1] at hxd
    exact absurd hxd (by decide)
  · rw [if_pos hc, if_pos hc', List.append_assoc, List.append_assoc] at h
    obtain ⟨h3, h⟩ := cut (tail _ _) (tail _ _) (List.append_cancel_left h)
    exact ⟨h3, tail_eq _ _ h⟩

/-- **C223.** Every string `devstr` gives starts with `dev`. -/
theorem devstr_prefix (sha : Bool) (g : Git) : ∃ t, devstr false sha g = .ok ("dev".toList ++ t) := by
  cases g with
  | notRun => exact ⟨[], rfl⟩
  | ran code out =>
    simp only [devstr, Bool.false_eq_true, if_false]
    split
    · exact ⟨[], rfl⟩
    · split
      · exact ⟨[], rfl⟩
      · split
        · exact ⟨"-git-".toList ++ out.take 40, rfl⟩
        · exact ⟨"-r".toList ++ num (out.count '\n'), rfl⟩

/-- **C223.** The written form: major and minor always, the bug fix number only if it is not 0. -/
theorem version_form (a b c : ℕ) (ds : Text) :
    version a b 0 false ds = num a ++ ".".toList ++ num b ∧
    (c ≠ 0 → version a b c false ds = num a ++ ".".toList ++ num b ++ ".".toList ++ num c) ∧
    version a b c true ds = version a b c false ds ++ ".".toList ++ ds := by
  refine ⟨by simp [version], fun h => by simp [version, h], by simp [version]⟩

/-! ## Concrete cases -/

example : version 1 1 0 true "dev-r1029".toList = "1.1.dev-r1029".toList ∧ version 1 10 2 false [] = "1.10.2".toList := by decide +kernel

example : ∀ x ∈ [List.replicate 40 'a', List.replicate 40 'b'], x.length = 40 ∧ '\n' ∉ x := by decide

end Verif.VersionStr
