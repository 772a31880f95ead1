import Verif.Projects

/-!
# Directories and scripts of projects (astropysics/config.py 669-742, 786-845) and the installation of packages (config.py 55-390)

A path is the list of its components; the file system maps paths to nodes.  POSIX paths; symbolic links, permissions and disk errors are not modelled.
-/

namespace Verif.ProjectDirs

open Verif.ConfigFile

inductive Err
  | os | io | registry (e : ConfigFile.Err)

abbrev Path := List Str

inductive Node
  | dir
  | file (content : Str)
deriving DecidableEq

abbrev FS := Path → Option Node

/-- Splitting a text at the slashes. -/
def splitSlash : Str → Str → List Str
  | cur, [] => [cur]
  | cur, c :: r => if c = '/' then cur :: splitSlash [] r else splitSlash (cur ++ [c]) r

/-- `os.path.normpath` on components: empty ones and `.` vanish, `..` removes the one before. -/
def normAux : Path → List Str → Path
  | acc, [] => acc
  | acc, c :: r => if c = [] ∨ c = ['.'] then normAux acc r else if c = ['.', '.'] then normAux acc.dropLast r else normAux (acc ++ [c]) r

/-- `os.path.abspath(os.path.join(base, s))`. -/
def absJoin (base : Path) (s : Str) : Path := if s.head? = some '/' then normAux [] (splitSlash [] s) else normAux base (splitSlash [] s)

/-- The text of a path. -/
def render (p : Path) : Str := if p = [] then ['/'] else (p.map (fun c => '/' :: c)).flatten

/-- `os.mkdir`: fails if the path exists or its parent is no directory. -/
def mkdir (fs : FS) (p : Path) : Except Err FS :=
  if fs p = none ∧ p ≠ [] ∧ fs p.dropLast = some .dir then .ok (fun q => if q = p then some .dir else fs q) else .error .os

/-- `open(p,'w')` and writing, for a path that does not exist. -/
def create (fs : FS) (p : Path) (c : Str) : Except Err FS :=
  if p ≠ [] ∧ fs p.dropLast = some .dir then .ok (fun q => if q = p then some (.file c) else fs q) else .error .io

def endsPy (s : Str) : Bool := s.drop (s.length - 3) == ['.', 'p', 'y']

/-- The name of the script without a path, config.py 821-828. -/
def scriptName (name : Str) : Str :=
  let b := name.map (fun c => if c = '/' then '_' else c)
  if endsPy b then b else b ++ ['.', 'p', 'y']

/-- The project directory, config.py 810-815. -/
def projDir (cwd : Path) (name : Str) (dir : Option Str) : Path := absJoin cwd (dir.getD name)

/-- The script file, config.py 820-831. -/
def projFile (cwd : Path) (name : Str) (dir script : Option Str) : Path :=
  match script with
  | none => projDir cwd name dir ++ [scriptName name]
  | some s => absJoin (projDir cwd name dir) s

structure World where
  fs : FS
  reg : Option Str

/-- The directory is made if it is not there, config.py 816-817. -/
def ensureDir (fs : FS) (p : Path) : Except Err FS := if fs p = some .dir then .ok fs else mkdir fs p

/-- The script is copied from the template if nothing is there, config.py 834-840. -/
def ensureScript (template : Str) (fs : FS) (p : Path) : Except Err FS :=
  match fs p with
  | none => create fs p template
  | some .dir => .error .io
  | some (.file _) => .ok fs

/-- `add_project`, config.py 786-845: the world afterwards and the result. -/
def addProject (template : Str) (cwd : Path) (w : World) (name : Str) (dir script : Option Str) : World × Except Err (Str × Str) :=
  let pd := projDir cwd name dir
  let pf := projFile cwd name dir script
  match load w.reg with
  | .raised e => (w, .error (.registry e))
  | _ =>
    match ensureDir w.fs pd with
    | .error e => (w, .error e)
    | .ok fs1 => match ensureScript template fs1 pf with
      | .error e => ({ w with fs := fs1 }, .error e)
      | .ok fs2 => match Projects.newText w.reg (.add name (render pd) (render pf)) with
        | .error e => ({ w with fs := fs2 }, .error (.registry e))
        | .ok t => (⟨fs2, some t⟩, .ok (render pd, render pf))

/-! ## Lemmas -/

theorem mkdir_spec (fs fs1 : FS) (p : Path) (h : mkdir fs p = .ok fs1) :
    fs p = none ∧ fs1 p = some .dir ∧ ∀ q, q ≠ p → fs1 q = fs q := by
  unfold mkdir at h
  split at h
  · next hc =>
    cases h
    exact ⟨hc.1, by simp, fun q hq => by simp [hq]⟩
  · cases h

theorem ensureDir_spec (fs fs1 : FS) (p : Path) (h : ensureDir fs p = .ok fs1) :
    fs1 p = some .dir ∧ (∀ q x, fs q = some x → fs1 q = some x) ∧ ∀ q, q ≠ p → fs1 q = fs q := by
  unfold ensureDir at h
  split at h
  · next hd => cases h; exact ⟨hd, fun _ _ h => h, fun _ _ => rfl⟩
  · obtain ⟨h1, h2, h3⟩ := mkdir_spec fs fs1 p h
    refine ⟨h2, ?_, h3⟩
    intro q x hq
    by_cases hqp : q = p
    · subst hqp; rw [h1] at hq; cases hq
    · rw [h3 q hqp]; exact hq

theorem ensureScript_spec (t : Str) (fs fs1 : FS) (p : Path) (h : ensureScript t fs p = .ok fs1) :
    (∃ c, fs1 p = some (.file c) ∧ (fs p = none → c = t)) ∧ (∀ q x, fs q = some x → fs1 q = some x) ∧ ∀ q, q ≠ p → fs1 q = fs q := by
  unfold ensureScript at h
  split at h
  · next hn =>
    unfold create at h
    split at h
    · cases h
      refine ⟨⟨t, by simp, fun _ => rfl⟩, ?_, fun q hq => by simp [hq]⟩
      intro q x hq
      by_cases hqp : q = p
      · subst hqp; rw [hn] at hq; cases hq
      · simp [hqp, hq]
    · cases h
  · cases h
  · next c hc => cases h; exact ⟨⟨c, hc, fun h0 => by rw [h0] at hc; cases hc⟩, fun _ _ h => h, fun _ _ => rfl⟩

/-- The possible outcomes. -/
theorem addProject_cases (template : Str) (cwd : Path) (w : World) (name : Str) (dir script : Option Str) :
    (∃ e, addProject template cwd w name dir script = (w, .error e)) ∨
    (∃ fs1 e, ensureDir w.fs (projDir cwd name dir) = .ok fs1 ∧ addProject template cwd w name dir script = ({ w with fs := fs1 }, .error e)) ∨
    (∃ fs1 fs2, ensureDir w.fs (projDir cwd name dir) = .ok fs1 ∧ ensureScript template fs1 (projFile cwd name dir script) = .ok fs2 ∧
      ((∃ e, addProject template cwd w name dir script = ({ w with fs := fs2 }, .error e)) ∨
        ∃ t, Projects.newText w.reg (.add name (render (projDir cwd name dir)) (render (projFile cwd name dir script))) = .ok t ∧
          addProject template cwd w name dir script =
            (⟨fs2, some t⟩, .ok (render (projDir cwd name dir), render (projFile cwd name dir script))))) := by
  unfold addProject
  simp only
  split
  · exact Or.inl ⟨_, rfl⟩
  · split
    · exact Or.inl ⟨_, rfl⟩
    · next fs1 h1 =>
      split
      · exact Or.inr (Or.inl ⟨fs1, _, h1, rfl⟩)
      · next fs2 h2 =>
        right; right
        refine ⟨fs1, fs2, h1, h2, ?_⟩
        split
        · exact Or.inl ⟨_, rfl⟩
        · next t ht => exact Or.inr ⟨t, ht, rfl⟩

/-! ## Theorems (C127) -/

/-- **C127.** Whatever happens, nothing that was in the file system is changed or removed, and nothing appears except the project directory and the script. -/
theorem nothing_overwritten (template : Str) (cwd : Path) (w : World) (name : Str) (dir script : Option Str) :
    (∀ p x, w.fs p = some x → (addProject template cwd w name dir script).1.fs p = some x) ∧
    ∀ p, (addProject template cwd w name dir script).1.fs p ≠ w.fs p → p = projDir cwd name dir ∨ p = projFile cwd name dir script := by
  have two : ∀ fs1 fs2, ensureDir w.fs (projDir cwd name dir) = .ok fs1 → ensureScript template fs1 (projFile cwd name dir script) = .ok fs2 →
      (∀ p x, w.fs p = some x → fs2 p = some x) ∧ ∀ p, fs2 p ≠ w.fs p → p = projDir cwd name dir ∨ p = projFile cwd name dir script := by
    intro fs1 fs2 h1 h2
    obtain ⟨-, a1, a2⟩ := ensureDir_spec _ _ _ h1
    obtain ⟨-, b1, b2⟩ := ensureScript_spec _ _ _ _ h2
    refine ⟨fun p x hp => b1 p x (a1 p x hp), ?_⟩
    intro p hp
    by_contra hc
    push Not at hc
    exact hp ((b2 p hc.2).trans (a2 p hc.1))
  rcases addProject_cases template cwd w name dir script with ⟨e, h⟩ | ⟨fs1, e, h1, h⟩ | ⟨fs1, fs2, h1, h2, ⟨e, h⟩ | ⟨t, -, h⟩⟩
  · rw [h]; exact ⟨fun _ _ h => h, fun p hp => absurd rfl hp⟩
  · rw [h]
    obtain ⟨-, a1, a2⟩ := ensureDir_spec _ _ _ h1
    refine ⟨a1, ?_⟩
    intro p hp
    left
    by_contra hc
    exact hp (a2 p hc)
  · rw [h]; exact two fs1 fs2 h1 h2
  · rw [h]; exact two fs1 fs2 h1 h2

/-- **C127.** If it succeeds, the pair returned names a directory and a file that exist (the file with the template, if there was nothing), and the project is
registered with exactly that pair, all others being as before. -/
theorem project_added (template : Str) (cwd : Path) (w : World) (name : Str) (dir script : Option Str) (r : Projects.Reg) (a b : Str)
    (hr : Projects.Stands w.reg r) (hn : NameOk name) (hd : Clean (render (projDir cwd name dir)))
    (hf : Clean (render (projFile cwd name dir script)))
    (h : (addProject template cwd w name dir script).2 = .ok (a, b)) :
    a = render (projDir cwd name dir) ∧ b = render (projFile cwd name dir script) ∧
    (addProject template cwd w name dir script).1.fs (projDir cwd name dir) = some .dir ∧
    (∃ c, (addProject template cwd w name dir script).1.fs (projFile cwd name dir script) = some (.file c) ∧
      (w.fs (projFile cwd name dir script) = none → c = template)) ∧
    Projects.Stands (addProject template cwd w name dir script).1.reg (fun m => if m = name then some (a, b) else r m) := by
  rcases addProject_cases template cwd w name dir script with ⟨e, h'⟩ | ⟨fs1, e, h1, h'⟩ | ⟨fs1, fs2, h1, h2, ⟨e, h'⟩ | ⟨t, ht, h'⟩⟩
  · rw [h'] at h; cases h
  · rw [h'] at h; cases h
  · rw [h'] at h; cases h
  · rw [h'] at h ⊢
    cases h
    obtain ⟨a0, a1, a2⟩ := ensureDir_spec _ _ _ h1
    obtain ⟨⟨c, c0, c1⟩, b1, b2⟩ := ensureScript_spec _ _ _ _ h2
    refine ⟨rfl, rfl, b1 _ _ a0, ⟨c, c0, ?_⟩, ?_⟩
    · intro hnone
      by_cases hp : projFile cwd name dir script = projDir cwd name dir
      · rw [hp] at c0
        rw [b1 _ _ a0] at c0
        cases c0
      · exact c1 (by rw [a2 _ hp]; exact hnone)
    · have ho : Projects.OpOk (.add name (render (projDir cwd name dir)) (render (projFile cwd name dir script))) := ⟨hn, hd, hf⟩
      have := Projects.stands_step w.reg r _ hr ho
      have hacc := (Projects.accepted_iff w.reg r _ hr ho).1.1 ⟨t, ht⟩
      unfold Projects.step Projects.specStep at this
      rw [ht, if_pos hacc] at this
      exact this

/-- **C127.** If it fails, the registry file is as before. -/
theorem failure_keeps_registry (template : Str) (cwd : Path) (w : World) (name : Str) (dir script : Option Str) (e : Err)
    (h : (addProject template cwd w name dir script).2 = .error e) : (addProject template cwd w name dir script).1.reg = w.reg := by
  rcases addProject_cases template cwd w name dir script with ⟨e, h'⟩ | ⟨fs1, e, h1, h'⟩ | ⟨fs1, fs2, h1, h2, ⟨e, h'⟩ | ⟨t, ht, h'⟩⟩
  · rw [h']
  · rw [h']
  · rw [h']
  · rw [h'] at h; cases h

/-- **C127.** It succeeds whenever the directory exists or can be made, no directory is in the place of the script (which is left to its default) and the texts
are storable. -/
theorem add_succeeds (template : Str) (cwd : Path) (w : World) (name : Str) (dir : Option Str) (r : Projects.Reg)
    (hr : Projects.Stands w.reg r) (hn : NameOk name) (hd : Clean (render (projDir cwd name dir)))
    (hf : Clean (render (projFile cwd name dir none)))
    (hdir : w.fs (projDir cwd name dir) = some .dir ∨
      (w.fs (projDir cwd name dir) = none ∧ projDir cwd name dir ≠ [] ∧ w.fs (projDir cwd name dir).dropLast = some .dir))
    (hfile : w.fs (projFile cwd name dir none) ≠ some .dir)
    (hs : Projects.Storable name ∧ Projects.Storable (render (projDir cwd name dir)) ∧ Projects.Storable (render (projFile cwd name dir none))) :
    ∃ a b, (addProject template cwd w name dir none).2 = .ok (a, b) := by
  have hload : ∃ d, load w.reg = .obj d := let ⟨d, h, _⟩ := hr; ⟨d, h⟩
  obtain ⟨d, hl⟩ := hload
  obtain ⟨fs1, h1⟩ : ∃ fs1, ensureDir w.fs (projDir cwd name dir) = .ok fs1 := by
    unfold ensureDir
    rcases hdir with h | ⟨h, h0, hp⟩
    · rw [if_pos h]; exact ⟨_, rfl⟩
    · rw [if_neg (by rw [h]; simp)]
      unfold mkdir
      rw [if_pos ⟨h, h0, hp⟩]
      exact ⟨_, rfl⟩
  obtain ⟨a0, a1, a2⟩ := ensureDir_spec _ _ _ h1
  have hne : projFile cwd name dir none ≠ projDir cwd name dir := by
    unfold projFile
    simp
  obtain ⟨fs2, h2⟩ : ∃ fs2, ensureScript template fs1 (projFile cwd name dir none) = .ok fs2 := by
    unfold ensureScript
    have hfile' : fs1 (projFile cwd name dir none) ≠ some .dir := by rw [a2 _ hne]; exact hfile
    split
    · unfold create
      rw [if_pos]
      · exact ⟨_, rfl⟩
      · unfold projFile
        simp only
        refine ⟨by simp, ?_⟩
        rw [List.dropLast_concat]
        exact a0
    · next h => exact absurd h hfile'
    · exact ⟨_, rfl⟩
  have ho : Projects.OpOk (.add name (render (projDir cwd name dir)) (render (projFile cwd name dir none))) := ⟨hn, hd, hf⟩
  obtain ⟨t, ht⟩ := (Projects.accepted_iff w.reg r _ hr ho).1.2 hs
  refine ⟨render (projDir cwd name dir), render (projFile cwd name dir none), ?_⟩
  unfold addProject
  simp only [hl, h1, h2, ht]

/-- **C127.** Without a script name the script is a file directly in the project directory; its name ends with `.py` and contains no slash. -/
theorem default_script (cwd : Path) (name : Str) (dir : Option Str) :
    ∃ s, projFile cwd name dir none = projDir cwd name dir ++ [s] ∧ (∃ t, s = t ++ ['.', 'p', 'y']) ∧ '/' ∉ s := by
  refine ⟨scriptName name, rfl, ?_, ?_⟩
  · unfold scriptName
    simp only
    split
    · next h =>
      unfold endsPy at h
      refine ⟨(name.map (fun c => if c = '/' then '_' else c)).take ((name.map (fun c => if c = '/' then '_' else c)).length - 3), ?_⟩
      conv_lhs => rw [← List.take_append_drop ((name.map (fun c => if c = '/' then '_' else c)).length - 3) (name.map _)]
      rw [beq_iff_eq.1 h]
    · exact ⟨_, rfl⟩
  · have hb : '/' ∉ name.map (fun c => if c = '/' then '_' else c) := by
      intro h
      obtain ⟨c, -, hc⟩ := List.mem_map.1 h
      split at hc
      · exact absurd hc (by decide)
      · next hne => exact hne hc
    unfold scriptName
    simp only
    split
    · exact hb
    · simp [hb]

/-- **C127.** Registering again, from the same directory, succeeds with the same pair and changes no file. -/
theorem add_again (template : Str) (cwd : Path) (w : World) (name : Str) (dir script : Option Str) (r : Projects.Reg) (a b : Str)
    (hr : Projects.Stands w.reg r) (hn : NameOk name) (hd : Clean (render (projDir cwd name dir)))
    (hf : Clean (render (projFile cwd name dir script)))
    (h : (addProject template cwd w name dir script).2 = .ok (a, b)) (w' : World) (hw : w' = (addProject template cwd w name dir script).1) :
    (addProject template cwd w' name dir script).2 = .ok (a, b) ∧ (addProject template cwd w' name dir script).1.fs = w'.fs := by
  have hst := (project_added template cwd w name dir script r a b hr hn hd hf h).2.2.2.2
  have ho : Projects.OpOk (.add name (render (projDir cwd name dir)) (render (projFile cwd name dir script))) := ⟨hn, hd, hf⟩
  rcases addProject_cases template cwd w name dir script with ⟨e, h0⟩ | ⟨fs1, e, h1, h0⟩ | ⟨fs1, fs2, h1, h2, ⟨e, h0⟩ | ⟨t, ht, h0⟩⟩
  · rw [h0] at h; cases h
  · rw [h0] at h; cases h
  · rw [h0] at h; cases h
  · rw [← hw] at hst
    rw [h0] at h hw
    cases h
    have hs := (Projects.accepted_iff w.reg r _ hr ho).1.1 ⟨t, ht⟩
    obtain ⟨t2, ht2⟩ := (Projects.accepted_iff w'.reg _ _ hst ho).1.2 hs
    obtain ⟨d2, hl2, -⟩ := hst
    obtain ⟨a0, a1, a2⟩ := ensureDir_spec _ _ _ h1
    obtain ⟨⟨c, c0, c1⟩, b1, b2⟩ := ensureScript_spec _ _ _ _ h2
    have e1 : ensureDir w'.fs (projDir cwd name dir) = .ok w'.fs := by
      unfold ensureDir
      rw [if_pos (by rw [hw]; exact b1 _ _ a0)]
    have e2 : ensureScript template w'.fs (projFile cwd name dir script) = .ok w'.fs := by
      unfold ensureScript
      rw [show w'.fs (projFile cwd name dir script) = some (.file c) by rw [hw]; exact c0]
    constructor
    · unfold addProject
      simp only [hl2, e1, e2, ht2]
    · unfold addProject
      simp only [hl2, e1, e2, ht2]

/-- For instance in an empty home directory. -/
example : projFile ["home".toList] "a/b".toList none none = ["home".toList, "a".toList, "b".toList, "a_b.py".toList] ∧
    projDir ["home".toList] "../x".toList none = ["x".toList] := by constructor <;> decide

/-- **C127, limit.** A project whose name contains a slash needs the directory before the slash: it is not created. -/
theorem nested_fails (template : Str) (w : World) (hw : w.reg = none)
    (hfs : w.fs ["a".toList] = none ∧ w.fs ["a".toList, "b".toList] = none) :
    addProject template [] w "a/b".toList none none = (w, .error .os) := by
  have hp : projDir [] "a/b".toList none = ["a".toList, "b".toList] := by decide
  have h1 : ensureDir w.fs ["a".toList, "b".toList] = .error .os := by
    unfold ensureDir
    rw [if_neg (by rw [hfs.2]; simp)]
    unfold mkdir
    rw [if_neg]
    rintro ⟨-, -, h⟩
    have : (["a".toList, "b".toList] : Path).dropLast = ["a".toList] := rfl
    rw [this, hfs.1] at h
    cases h
  unfold addProject
  simp only [hw, load, hp, h1]

end Verif.ProjectDirs
