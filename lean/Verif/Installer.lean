import Mathlib.Data.List.Basic
import Mathlib.Tactic.Linarith

/-!
# Installing packages (astropysics/config.py 55-390)

The commands themselves (download, unpack, build, install) are parameters.
-/

namespace Verif.Installer

inductive Err
  | nameError | attribute | installError | index | ioError | recursion | download
deriving DecidableEq, Repr

inductive Kind
  | tar | zip | other
deriving DecidableEq, Repr

/-- What happens when the archive is opened and unpacked: it works, or an IOError with so many arguments, of which the second says whether the CRC failed. -/
inductive Unpack
  | ok
  | io1
  | io2 (crc : Bool)
deriving DecidableEq, Repr

/-- What the world does with the file downloaded in the `k`-th download (0: the file found on disk or the first one). -/
structure World where
  kind : Kind
  unpack : Nat → Unpack
  build : Nat → Int
  inst : Nat → Int

/-- What was run. -/
inductive Ev
  | download (k : Nat)
  | build
  | run (pre : String)
  | post (success : Bool)
  | rmtree
deriving DecidableEq, Repr

/-- The object: `installed` is None until something was installed. -/
structure Pkg where
  installed : Option Bool
  log : List Ev

/-- `_getUrlfromPyPI`, config.py 135-140: a version request compares a variable that does not exist. -/
def chooseVersion (request : Option String) (newest : String) : Except Err String := match request with
  | none => .ok newest
  | some _ => .error .nameError

/-- The rest of `install` after unpacking, config.py 309-346; a failing build or installation tries to name an exception or a package that does not exist. -/
def buildAndRun (w : World) (k : Nat) (pre : String) (p : Pkg) : Pkg × Except Err Unit :=
  if w.build k ≠ 0 then ({ p with log := p.log ++ [.build] }, .error .nameError)
  else if w.inst k = 0 then (⟨some true, p.log ++ [.build, .run pre, .post true, .rmtree]⟩, .ok ())
  else (⟨some false, p.log ++ [.build, .run pre, .post false]⟩, .error .nameError)

/-- `install`, config.py 253-356: `k` counts the downloads, `fuel` is the recursion limit.  The file may be on disk already (`have`). -/
def install (w : World) : Nat → Nat → Bool → String → Pkg → Pkg × Except Err Unit
  | 0, _, _, _, p => (p, .error .recursion)
  | fuel + 1, k, have_, pre, p =>
    let p1 : Pkg := if have_ then p else { p with log := p.log ++ [.download k] }
    match w.kind with
    | .other => (p1, .error .installError)
    | .zip => (p1, .error .attribute)
    | .tar => match w.unpack k with
      | .ok => buildAndRun w k pre p1
      | .io1 => (p1, .error .index)
      | .io2 false => (p1, .error .ioError)
      | .io2 true => install w fuel (k + 1) false "" { p1 with installed := some false }

/-- `isInstalled`, config.py 204-218; `importable` is what importing the module gives. -/
def isInstalled (importable : Bool) (p : Pkg) : Bool := p.installed.getD importable

/-! ## Theorems (C128) -/

/-- The package was built and installed, in this order, by commands that succeeded. -/
theorem buildAndRun_ok (w : World) (k : Nat) (pre : String) (p q : Pkg) (h : buildAndRun w k pre p = (q, .ok ())) :
    q.installed = some true ∧ q.log = p.log ++ [.build, .run pre, .post true, .rmtree] ∧ w.build k = 0 ∧ w.inst k = 0 := by
  unfold buildAndRun at h
  split at h
  · cases h
  · next hb =>
    split at h
    · next hi => cases h; exact ⟨rfl, rfl, by simpa using hb, hi⟩
    · cases h

/-- **C128.** If `install` returns, the package counts as installed, and the last things done were a successful build, a successful installation and the removal
of the directory. -/
theorem install_success (w : World) : ∀ (fuel k : Nat) (have_ : Bool) (pre : String) (p q : Pkg),
    install w fuel k have_ pre p = (q, .ok ()) →
    (∀ b, isInstalled b q = true) ∧ w.kind = .tar ∧
    ∃ j l pre', q.log = l ++ [.build, .run pre', .post true, .rmtree] ∧ w.unpack j = .ok ∧ w.build j = 0 ∧ w.inst j = 0
  | 0, k, have_, pre, p, q, h => by cases h
  | fuel + 1, k, have_, pre, p, q, h => by
    unfold install at h
    simp only at h
    cases hk : w.kind with
    | other => rw [hk] at h; cases h
    | zip => rw [hk] at h; cases h
    | tar =>
      rw [hk] at h
      simp only at h
      cases hu : w.unpack k with
      | ok =>
        rw [hu] at h
        simp only at h
        obtain ⟨h1, h2, h3, h4⟩ := buildAndRun_ok _ _ _ _ _ h
        exact ⟨fun b => by simp [isInstalled, h1], rfl, k, _, pre, h2, hu, h3, h4⟩
      | io1 => rw [hu] at h; cases h
      | io2 c =>
        rw [hu] at h
        cases c with
        | false => cases h
        | true =>
          simp only at h
          have := install_success w fuel (k + 1) false "" _ q h
          exact ⟨this.1, rfl, this.2.2⟩

/-- **C128.** A good archive is installed, with the prefix given, downloading it only if it is not on disk. -/
theorem install_good (w : World) (fuel k : Nat) (have_ : Bool) (pre : String) (p : Pkg) (hk : w.kind = .tar) (hu : w.unpack k = .ok)
    (hb : w.build k = 0) (hi : w.inst k = 0) :
    install w (fuel + 1) k have_ pre p =
      (⟨some true, p.log ++ (if have_ then [] else [.download k]) ++ [.build, .run pre, .post true, .rmtree]⟩, .ok ()) := by
  unfold install
  simp only [hk, hu]
  unfold buildAndRun
  rw [if_neg (by simp [hb]), if_pos hi]
  cases have_ <;> simp

/-- **C128.** If the installation command fails, an exception is raised, the cleaning-up hook is told of the failure, and the package
does not count as installed, even if an older one can be imported. -/
theorem failed_installation (w : World) (fuel k : Nat) (have_ : Bool) (pre : String) (p : Pkg) (hk : w.kind = .tar)
    (hu : w.unpack k = .ok) (hb : w.build k = 0) (hi : w.inst k ≠ 0) :
    ∃ e q, install w (fuel + 1) k have_ pre p = (q, .error e) ∧ (∀ b, isInstalled b q = false) ∧
      q.log = p.log ++ (if have_ then [] else [.download k]) ++ [.build, .run pre, .post false] := by
  refine ⟨.nameError, ⟨some false, p.log ++ (if have_ then [] else [.download k]) ++ [.build, .run pre, .post false]⟩, ?_,
    fun b => rfl, rfl⟩
  unfold install
  simp only [hk, hu]
  unfold buildAndRun
  rw [if_neg (by simp [hb]), if_neg hi]
  cases have_ <;> simp

example : ∃ w : World, w.kind = .tar ∧ w.unpack 0 = .ok ∧ w.build 0 = 0 ∧ w.inst 0 ≠ 0 :=
  ⟨⟨.tar, fun _ => .ok, fun _ => 0, fun _ => 1⟩, rfl, rfl, rfl, by decide⟩

/-- **C128, limit.** A package with a version request can never be installed. -/
theorem version_fails (v newest : String) : chooseVersion (some v) newest = .error .nameError ∧ chooseVersion none newest = .ok newest :=
  ⟨rfl, rfl⟩

/-- **C128, limit.** The documented InstallError never comes from a failing build or installation: those raise NameError; zip archives always fail with
AttributeError. -/
theorem install_error_wrong (w : World) (fuel k : Nat) (have_ : Bool) (pre : String) (p : Pkg) :
    (w.kind = .tar → w.unpack k = .ok → (w.build k ≠ 0 ∨ w.inst k ≠ 0) → (install w (fuel + 1) k have_ pre p).2 = .error .nameError) ∧
    (w.kind = .zip → (install w (fuel + 1) k have_ pre p).2 = .error .attribute) := by
  constructor
  · intro hk hu h
    unfold install
    simp only [hk, hu]
    unfold buildAndRun
    split
    · rfl
    · next hb =>
      rcases h with h | h
      · exact absurd h hb
      · rw [if_neg h]
  · intro hk
    unfold install
    simp only [hk]

/-- **C128, limit.** After a failing build the object does not know that it failed. -/
theorem build_failure_unknown (w : World) (fuel k : Nat) (have_ : Bool) (pre : String) (p : Pkg) (hk : w.kind = .tar) (hu : w.unpack k = .ok)
    (hb : w.build k ≠ 0) : (install w (fuel + 1) k have_ pre p).1.installed = p.installed := by
  unfold install
  simp only [hk, hu]
  unfold buildAndRun
  rw [if_pos hb]
  cases have_ <;> rfl

/-- **C128, limit.** A download that was interrupted leaves a file that is used from then on: as long as unpacking it raises an IOError with one argument (as
gzip does), every attempt fails with IndexError and nothing is downloaded again. -/
theorem broken_file_stays (w : World) (fuel : Nat) (pre : String) (p : Pkg) (hk : w.kind = .tar) (hu : w.unpack 0 = .io1) :
    install w (fuel + 1) 0 true pre p = (p, .error .index) := by
  unfold install
  simp only [hk, hu, if_true]

/-- **C128, limit.** Where the file is downloaded again, the prefix ("sudo") is forgotten. -/
theorem prefix_lost (w : World) (fuel : Nat) (pre : String) (p : Pkg) (hk : w.kind = .tar) (h0 : w.unpack 0 = .io2 true) (h1 : w.unpack 1 = .ok)
    (hb : w.build 1 = 0) (hi : w.inst 1 = 0) :
    (install w (fuel + 2) 0 true pre p).1.log = p.log ++ [.download 1, .build, .run "", .post true, .rmtree] := by
  unfold install
  simp only [hk, h0, if_true]
  rw [install_good w fuel 1 false "" _ hk h1 hb hi]
  simp

/-- **C128, limit.** If every file downloaded is broken the same way, it is downloaded again and again until the recursion limit. -/
theorem endless_download (w : World) (hk : w.kind = .tar) (h : ∀ k, w.unpack k = .io2 true) : ∀ (fuel k : Nat) (have_ : Bool) (pre : String) (p : Pkg),
    (install w fuel k have_ pre p).2 = .error .recursion
  | 0, _, _, _, _ => rfl
  | fuel + 1, k, have_, pre, p => by
    unfold install
    simp only [hk, h]
    exact endless_download w hk h fuel (k + 1) false "" _

example : ∃ w : World, w.kind = .tar ∧ w.unpack 0 = .io2 true ∧ w.unpack 1 = .ok ∧ w.build 1 = 0 ∧ w.inst 1 = 0 :=
  ⟨⟨.tar, fun k => if k = 0 then .io2 true else .ok, fun _ => 0, fun _ => 0⟩, by decide, by decide, by decide, by decide, by decide⟩

end Verif.Installer
