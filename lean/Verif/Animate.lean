import Mathlib.Data.List.Basic
import Mathlib.Data.List.Nodup
import Mathlib.Data.Rat.Defs
import Mathlib.Algebra.BigOperators.Group.List.Basic
import Mathlib.Algebra.Field.Rat
import Mathlib.Algebra.Group.Prod
import Mathlib.Tactic.FieldSimp
import Mathlib.Tactic.Ring
import Mathlib.Tactic.Linarith

/-!
# Animations and movies (astropysics/plotting.py 1127-1244, 1489-1566) (C209, C210)

`ax3d_animate` on a figure with one 3D axis: the views drawn and the files saved; and the pattern `make_movie` gives to ffmpeg.  Angles are exact numbers.
File names have no characters special to `glob` besides the star put in.
-/

namespace Verif.Animate

abbrev Text := List Char
abbrev View := ℚ × ℚ

inductive Err
  | zeroDivision
  | value
  | name
  deriving DecidableEq

/-! ## The views -/

/-- The steps, plotting.py 1207-1223: for every segment as many equal steps as it has frames; `[x]*nf` is empty for a negative number. -/
def steps (relative : Bool) : View → List (View × ℤ) → Except Err (List View)
  | _, [] => .ok []
  | last, ((az, el), nf) :: l =>
    if nf = 0 then .error .zeroDivision else
    let d : View := if relative then (az / nf, el / nf) else ((az - last.1) / nf, (el - last.2) / nf)
    match steps relative (az, el) l with
    | .error e => .error e
    | .ok r => .ok (List.replicate nf.toNat d ++ r)

/-- The views drawn: the first one and one after every step, plotting.py 1228-1242. -/
def views (v : View) : List View → List View
  | [] => [v]
  | d :: l => v :: views (v + d) l

/-- The saved frames: number and view.  The first view is saved with the number 0, and so is the one after the first step. -/
def saved (v : View) (st : List View) : List (ℕ × View) := (0, v) :: (views v st).tail.mapIdx fun i w => (i, w)

/-- The initial view and the steps, plotting.py 1193-1223: an extra key frame at the front is the initial view. -/
def frames (relative : Bool) (view0 : View) (azels : List View) (nframes : List ℤ) : Except Err (View × List View) :=
  if azels.length = nframes.length then (steps relative view0 (azels.zip nframes)).map fun s => (view0, s)
  else match azels with
    | a :: rest => if rest.length = nframes.length then (steps relative a (rest.zip nframes)).map fun s => (a, s) else .error .value
    | [] => .error .value

/-! ## The files -/

/-- The file name given: one without '{fnum}', as root and extension, or the pieces between the occurrences of '{fnum}'. -/
inductive Fn
  | plain (root ext : Text)
  | parts (a : Text) (b : Text) (rest : List Text)

/-- plotting.py 1173-1174, 1531-1532. -/
def pieces : Fn → Text × List Text
  | .plain root ext => (root ++ ['_'], [ext])
  | .parts a b rest => (a, b :: rest)

/-- `'%0'+str(w)+'i' % i` -/
def pad (w i : ℕ) : Text := List.replicate (w - (Nat.toDigits 10 i).length) '0' ++ Nat.toDigits 10 i

/-- `fn.replace('{fnum}',frmstr%i)` -/
def frameName (fn : Fn) (w i : ℕ) : Text := (pieces fn).1 ++ (pieces fn).2.flatMap fun p => pad w i ++ p

/-- The files: name and content, later writes of a name replace the earlier one. -/
def write (dir : List (Text × View)) (name : Text) (v : View) : List (Text × View) := dir.filter (fun f => f.1 ≠ name) ++ [(name, v)]

/-- `glob.glob(pre+'*'+post)` for one name. -/
def globbed (pre post name : Text) : Bool := pre.isPrefixOf name && post.isSuffixOf name && decide (pre.length + post.length ≤ name.length)

/-- Deleting earlier frames, plotting.py 1176-1181.  Names with several numbers: not modelled, nothing is deleted. -/
def predelete (fn : Fn) (dir : List (Text × View)) : List (Text × View) := match pieces fn with
  | (pre, [post]) => dir.filter fun f => !globbed pre post f.1
  | _ => dir

/-- `ax3d_animate` with a file name.  The deletion comes before all checks. -/
def animate (fn : Fn) (del relative : Bool) (view0 : View) (azels : List View) (nframes : List ℤ) (dir : List (Text × View)) :
    List (Text × View) × Except Err Unit :=
  let dir := if del then predelete fn dir else dir
  match frames relative view0 azels nframes with
  | .error e => (dir, .error e)
  | .ok (v, st) =>
    let w := (Nat.toDigits 10 st.length).length
    ((saved v st).foldl (fun d f => write d (frameName fn w f.1) f.2) dir, .ok ())

/-- `make_movie`, plotting.py 1529-1566: the pattern (before, digits, after) given to ffmpeg.  `inops`, `outops`: a nonempty dictionary was given.  `ret` is the
return code.  The argument `run` is never looked at. -/
def movie (fn : Fn) (dir : List Text) (inops outops : Bool) (ret : ℤ) (_run : Bool) : Bool × Except Err (Text × ℕ × Text) :=
  match pieces fn with
  | (pre, [post]) =>
    if inops || outops then (false, .error .name)
    else match dir.filter (globbed pre post) with
      | [] => (false, .error .value)
      | f :: _ => (true, if ret = 0 then .ok (pre, f.length - pre.length - post.length, post) else .error .value)
  | _ => (false, .error .value)

/-- The name ffmpeg looks for as number `i`. -/
def expand (pat : Text × ℕ × Text) (i : ℕ) : Text := pat.1 ++ pad pat.2.1 i ++ pat.2.2

/-! ## Views: proofs -/

/-- Where the last of some key frames points: relative key frames add up, absolute ones are what they are. -/
def target (relative : Bool) (v : View) (l : List (View × ℤ)) : View :=
  if relative then v + (l.map (·.1)).sum else ((l.map (·.1)).getLast?).getD v

theorem replicate_sum (n : ℕ) (d : View) : (List.replicate n d).sum = (n * d.1, n * d.2) := by
  induction n with
  | zero => simp; rfl
  | succ n ih =>
    rw [List.replicate_succ, List.sum_cons, ih]
    refine Prod.ext ?_ ?_ <;> simp [add_mul, add_comm]

theorem steps_append (relative : Bool) (v : View) (l m : List (View × ℤ)) (hl : ∀ x ∈ l, 1 ≤ x.2) (u : View) (r : List View)
    (hu : u = ((l.map (·.1)).getLast?).getD v) (hm : steps relative u m = .ok r) :
    ∃ s, steps relative v (l ++ m) = .ok (s ++ r) ∧ (s.length : ℤ) = (l.map (·.2)).sum ∧ v + s.sum = target relative v l := by
  induction l generalizing v with
  | nil =>
    subst hu
    refine ⟨[], hm, rfl, ?_⟩
    cases relative <;> simp [target]
  | cons x l ih =>
    obtain ⟨⟨az, el⟩, nf⟩ := x
    have hnf : 1 ≤ nf := hl ((az, el), nf) (by simp)
    have hu' : u = ((l.map (·.1)).getLast?).getD (az, el) := by
      rw [hu, List.map_cons, List.getLast?_cons]; rfl
    obtain ⟨s, h1, h2, h3⟩ := ih (az, el) (fun y hy => hl y (by simp [hy])) hu'
    simp only [List.cons_append, steps, if_neg (show ¬ nf = 0 by omega), h1]
    refine ⟨_, by rw [List.append_assoc], ?_, ?_⟩
    · simp only [List.length_append, List.length_replicate, List.map_cons, List.sum_cons]
      push_cast
      rw [h2]; omega
    · have hc : ((nf.toNat : ℕ) : ℚ) = (nf : ℚ) := by
        have : ((nf.toNat : ℕ) : ℤ) = nf := by omega
        exact_mod_cast this
      have hne : (nf : ℚ) ≠ 0 := by
        have : nf ≠ 0 := by omega
        exact_mod_cast this
      rw [List.sum_append, replicate_sum, hc]
      cases relative
      · simp only [target, Bool.false_eq_true, if_false, List.map_cons, List.getLast?_cons, Option.getD_some] at h3 ⊢
        rw [← h3]
        refine Prod.ext ?_ ?_ <;> simp <;> field_simp <;> ring
      · simp only [target, if_true, List.map_cons, List.sum_cons] at h3 ⊢
        have h4 : s.sum = (l.map (·.1)).sum := add_left_cancel h3
        rw [h4]
        refine Prod.ext ?_ ?_ <;> simp <;> field_simp

theorem steps_ok (relative : Bool) (v : View) (l : List (View × ℤ)) (hl : ∀ x ∈ l, 1 ≤ x.2) : ∃ s, steps relative v l = .ok s := by
  obtain ⟨s, h, _⟩ := steps_append relative v l [] hl _ [] rfl rfl
  rw [List.append_nil] at h
  exact ⟨_, h⟩

/-- C209: after the frames of the first key frames the view is exactly the last of them, relative ones added up; there is one step for every frame. -/
theorem key_frames (relative : Bool) (v : View) (l m : List (View × ℤ)) (h : ∀ x ∈ l ++ m, 1 ≤ x.2) :
    ∃ s r, steps relative v (l ++ m) = .ok (s ++ r) ∧ (s.length : ℤ) = (l.map (·.2)).sum ∧ v + s.sum = target relative v l := by
  obtain ⟨r, hr⟩ := steps_ok relative (((l.map (·.1)).getLast?).getD v) m fun x hx => h x (by simp [hx])
  obtain ⟨s, h1, h2, h3⟩ := steps_append relative v l m (fun x hx => h x (by simp [hx])) _ r rfl hr
  exact ⟨s, r, h1, h2, h3⟩

/-- C209: within a segment all steps are equal. -/
theorem equal_steps (relative : Bool) (v : View) (x : View × ℤ) (m : List (View × ℤ)) (s : List View) (h : steps relative v (x :: m) = .ok s) :
    ∃ d, s.take x.2.toNat = List.replicate x.2.toNat d := by
  obtain ⟨⟨az, el⟩, nf⟩ := x
  simp only [steps] at h
  by_cases h0 : nf = 0
  · rw [if_pos h0] at h; exact absurd h (by simp)
  rw [if_neg h0] at h
  split at h
  · exact absurd h (by simp)
  · injection h with h
    exact ⟨_, by rw [← h, List.take_left' (by simp)]⟩

/-- C209, limit: a segment of zero frames always fails. -/
theorem zero_frames (relative : Bool) (v : View) (l m : List (View × ℤ)) (hl : ∀ x ∈ l, 1 ≤ x.2) (a : View) :
    steps relative v (l ++ (a, 0) :: m) = .error .zeroDivision := by
  induction l generalizing v with
  | nil => rfl
  | cons x l ih =>
    obtain ⟨⟨az, el⟩, nf⟩ := x
    have : 1 ≤ nf := hl ((az, el), nf) (by simp)
    simp only [List.cons_append, steps, if_neg (show ¬ nf = 0 by omega), ih (az, el) fun y hy => hl y (by simp [hy])]

/-- C209: the lengths must agree, or there is one key frame more, which is then the initial view, even for relative ones; else ValueError. -/
theorem lengths (relative : Bool) (v a : View) (azels : List View) (nframes : List ℤ) :
    (azels.length = nframes.length → frames relative v azels nframes = (steps relative v (azels.zip nframes)).map fun s => (v, s)) ∧
    (azels.length = nframes.length → frames relative v (a :: azels) nframes = (steps relative a (azels.zip nframes)).map fun s => (a, s)) ∧
    (azels.length ≠ nframes.length → azels.length ≠ nframes.length + 1 → frames relative v azels nframes = .error .value) := by
  refine ⟨fun h => ?_, fun h => ?_, fun h h' => ?_⟩
  · simp [frames, h]
  · have : (a :: azels).length ≠ nframes.length := by simp; omega
    simp only [frames, if_neg this, h, if_true]
  · unfold frames
    rw [if_neg h]
    cases azels with
    | nil => rfl
    | cons b l => simp only [if_neg (show ¬ l.length = nframes.length by simp at h'; exact h')]

/-! ## Files: proofs -/

theorem views_get (v : View) (st : List View) (i : ℕ) (h : i ≤ st.length) : (views v st)[i]? = some (v + (st.take i).sum) := by
  induction st generalizing v i with
  | nil =>
    have : i = 0 := by simpa using h
    subst this
    simp [views]
  | cons d st ih =>
    cases i with
    | zero => simp [views]
    | succ i =>
      simp only [views, List.getElem?_cons_succ, List.take_succ_cons, List.sum_cons]
      rw [ih (v + d) i (by simpa using h), add_assoc]

theorem views_length (v : View) (st : List View) : (views v st).length = st.length + 1 := by
  induction st generalizing v with
  | nil => rfl
  | cons d st ih => simp [views, ih]

theorem pad_length (w i : ℕ) (h : (Nat.toDigits 10 i).length ≤ w) : (pad w i).length = w := by
  simp [pad]; omega

theorem digits_mono {i n : ℕ} (h : i ≤ n) : (Nat.toDigits 10 i).length ≤ (Nat.toDigits 10 n).length := by
  have hp : 0 < (Nat.toDigits 10 n).length := Nat.length_toDigits_pos
  rw [Nat.length_toDigits_le_iff (by decide) hp]
  exact lt_of_le_of_lt h ((Nat.length_toDigits_le_iff (by decide) hp).1 le_rfl)

theorem zeros_value (k : ℕ) (l : Text) : Nat.ofDigitChars 10 (List.replicate k '0' ++ l) 0 = Nat.ofDigitChars 10 l 0 := by
  induction k with
  | zero => rfl
  | succ k ih =>
    rw [List.replicate_succ, List.cons_append, Nat.ofDigitChars_cons]
    simpa using ih

theorem pad_injective (w i j : ℕ) (h : pad w i = pad w j) : i = j := by
  have := congrArg (fun l => Nat.ofDigitChars 10 l 0) h
  simpa only [pad, zeros_value, Nat.ofDigitChars_toDigits (show 1 < 10 by decide) (show 10 ≤ 10 by decide)] using this

theorem frameName_injective (fn : Fn) (w i j : ℕ) (hi : (Nat.toDigits 10 i).length ≤ w) (hj : (Nat.toDigits 10 j).length ≤ w)
    (h : frameName fn w i = frameName fn w j) : i = j := by
  unfold frameName at h
  have h := List.append_cancel_left h
  have key : ∀ (b : Text) (r : List Text), ((b :: r).flatMap fun p => pad w i ++ p) = ((b :: r).flatMap fun p => pad w j ++ p) → pad w i = pad w j := by
    intro b r h
    rw [List.flatMap_cons, List.flatMap_cons, List.append_assoc, List.append_assoc] at h
    exact (List.append_inj h (by rw [pad_length w i hi, pad_length w j hj])).1
  cases fn with
  | plain r e => exact pad_injective w i j (key _ _ h)
  | parts a b r => exact pad_injective w i j (key _ _ h)

/-- What the directory holds under a name. -/
def content (dir : List (Text × View)) (name : Text) : Option View := (dir.find? fun f => decide (f.1 = name)).map (·.2)

theorem content_write (dir : List (Text × View)) (name other : Text) (v : View) :
    content (write dir name v) other = if other = name then some v else content dir other := by
  unfold content write
  rw [List.find?_append]
  split_ifs with h
  · subst h
    have : (dir.filter fun f => decide (f.1 ≠ other)).find? (fun f => decide (f.1 = other)) = none := by
      rw [List.find?_eq_none]
      intro x hx
      simpa using (List.mem_filter.1 hx).2
    rw [this]
    simp
  · have h1 : [(name, v)].find? (fun f => decide (f.1 = other)) = none := by simp [Ne.symm h]
    rw [h1, Option.or_none]
    congr 1
    rw [List.find?_filter]
    congr 1
    funext f
    by_cases hf : f.1 = other
    · simp [hf, h]
    · simp [hf]

theorem content_foldl (fn : Fn) (w : ℕ) (l : List (ℕ × View)) (dir : List (Text × View)) (other : Text) (h : ∀ f ∈ l, frameName fn w f.1 ≠ other) :
    content (l.foldl (fun d f => write d (frameName fn w f.1) f.2) dir) other = content dir other := by
  induction l generalizing dir with
  | nil => rfl
  | cons f l ih =>
    rw [List.foldl_cons, ih _ fun g hg => h g (by simp [hg]), content_write, if_neg (Ne.symm (h f (by simp)))]

theorem tail_saved (v : View) (st : List View) (i : ℕ) (h : i < st.length) : ((views v st).tail)[i]? = some (v + (st.take (i + 1)).sum) := by
  rw [List.getElem?_tail]; exact views_get v st (i + 1) h

/-- C209: file number i holds the view after i+1 steps; every frame has its file; no other file changes (besides those deleted before). -/
theorem files (fn : Fn) (relative : Bool) (view0 : View) (azels : List View) (nframes : List ℤ) (dir : List (Text × View)) (v : View) (st : List View)
    (h : frames relative view0 azels nframes = .ok (v, st)) (hn : st ≠ []) :
    ∃ w, ∃ dir', animate fn false relative view0 azels nframes dir = (dir', .ok ()) ∧
      (∀ i, i < st.length → content dir' (frameName fn w i) = some (v + (st.take (i + 1)).sum)) ∧
      (∀ name, (∀ i, i < st.length → frameName fn w i ≠ name) → content dir' name = content dir name) ∧
      (∀ i j, i < st.length → j < st.length → frameName fn w i = frameName fn w j → i = j) ∧
      ∀ i, i < st.length → (pad w i).length = w := by
  have hw : ∀ i, i < st.length → (Nat.toDigits 10 i).length ≤ (Nat.toDigits 10 st.length).length := fun i hi => digits_mono hi.le
  refine ⟨(Nat.toDigits 10 st.length).length, _, by simp only [animate, h, Bool.false_eq_true, if_false]; rfl, ?_, ?_, ?_, ?_⟩
  · intro i hi
    generalize hW : (Nat.toDigits 10 st.length).length = w at *
    -- the writes after the one of number i are for other names
    have hlen : (views v st).tail.length = st.length := by simp [views_length]
    unfold saved
    have hsplit : (views v st).tail.mapIdx (fun i w => (i, w)) = ((views v st).tail.mapIdx fun i w => (i, w)).take i ++
        (i, v + (st.take (i + 1)).sum) :: ((views v st).tail.mapIdx fun i w => (i, w)).drop (i + 1) := by
      have hlt : i < ((views v st).tail.mapIdx fun i w => (i, w)).length := by simp [hlen, hi]
      have hget : ((views v st).tail.mapIdx fun i w => (i, w))[i] = (i, v + (st.take (i + 1)).sum) := by
        have := tail_saved v st i hi
        rw [List.getElem?_eq_getElem (by omega)] at this
        injection this with this
        rw [List.getElem_mapIdx, this]
      rw [← hget, ← List.drop_eq_getElem_cons hlt, List.take_append_drop]
    rw [hsplit, ← List.cons_append, List.foldl_append, List.foldl_cons, content_foldl, content_write, if_pos rfl]
    intro f hf
    obtain ⟨k, hk⟩ := List.mem_iff_getElem?.1 hf
    rw [List.getElem?_drop, List.getElem?_mapIdx] at hk
    obtain ⟨x, hx, rfl⟩ := Option.map_eq_some_iff.1 hk
    have hlt : i + 1 + k < st.length := by
      have := (List.getElem?_eq_some_iff.1 hx).1
      omega
    intro hc
    have := frameName_injective fn w _ _ (hw _ hlt) (hw _ hi) hc
    omega
  · intro name hname
    apply content_foldl
    intro f hf
    unfold saved at hf
    rcases List.mem_cons.1 hf with rfl | hf
    · exact hname 0 (List.length_pos_iff.2 hn)
    · obtain ⟨k, hk⟩ := List.mem_iff_getElem?.1 hf
      rw [List.getElem?_mapIdx] at hk
      obtain ⟨x, hx, rfl⟩ := Option.map_eq_some_iff.1 hk
      have := (List.getElem?_eq_some_iff.1 hx).1
      rw [List.length_tail, views_length] at this
      exact hname k (by omega)
  · intro i j hi hj hc
    exact frameName_injective fn _ i j (hw i hi) (hw j hj) hc
  · intro i hi
    exact pad_length _ i (hw i hi)

/-- C209: the name of a frame: the number, padded with zeros to the given width, stands before the extension with an underscore, or wherever the name says. -/
theorem frame_names (root ext a b : Text) (rest : List Text) (w i : ℕ) :
    frameName (.plain root ext) w i = root ++ ['_'] ++ pad w i ++ ext ∧
    frameName (.parts a b rest) w i = a ++ (pad w i ++ b ++ (rest.map fun p => pad w i ++ p).flatten) ∧
    ∃ k, pad w i = List.replicate k '0' ++ Nat.toDigits 10 i ∧ ((Nat.toDigits 10 i).length ≤ w → (pad w i).length = w) := by
  refine ⟨by simp [frameName, pieces], by simp [frameName, pieces, List.flatMap], _, rfl, pad_length w i⟩

/-- C209: with `predelete` exactly the files whose name begins and ends as the frames do are deleted, whatever stands between. -/
theorem deleted (fn : Fn) (pre post : Text) (hp : pieces fn = (pre, [post])) (dir : List (Text × View)) (f : Text × View) :
    f ∈ predelete fn dir ↔ f ∈ dir ∧ ¬ ∃ x, f.1 = pre ++ x ++ post := by
  unfold predelete
  rw [hp]
  simp only [List.mem_filter, Bool.not_eq_true']
  refine and_congr Iff.rfl ?_
  rw [← Bool.not_eq_true]
  refine not_congr ?_
  unfold globbed
  simp only [Bool.and_eq_true, List.isPrefixOf_iff_prefix, List.isSuffixOf_iff_suffix, decide_eq_true_eq]
  constructor
  · rintro ⟨⟨⟨x, hx⟩, ⟨y, hy⟩⟩, hl⟩
    have hlen : pre.length ≤ y.length := by
      have := congrArg List.length hy
      simp only [List.length_append] at this
      omega
    have h1 : pre <+: y := by
      have hpf : pre <+: f.1 := ⟨x, hx⟩
      have hyf : y <+: f.1 := ⟨post, hy⟩
      exact List.prefix_of_prefix_length_le hpf hyf hlen
    obtain ⟨z, hz⟩ := h1
    exact ⟨z, by rw [hz, hy]⟩
  · rintro ⟨x, hx⟩
    rw [hx]
    exact ⟨⟨⟨x ++ post, by simp⟩, ⟨pre ++ x, rfl⟩⟩, by simp⟩

/-- C209, limit: the initial view, documented as the first key frame, is in no file as soon as there is one frame: its file is overwritten. -/
theorem initial_view_lost (fn : Fn) (relative : Bool) (view0 : View) (azels : List View) (nframes : List ℤ) (v d : View) (st : List View)
    (h : frames relative view0 azels nframes = .ok (v, d :: st)) :
    ∃ w, content (animate fn false relative view0 azels nframes []).1 (frameName fn w 0) = some (v + d) := by
  obtain ⟨w, dir', h1, h2, _⟩ := files fn relative view0 azels nframes [] v (d :: st) h (by simp)
  refine ⟨w, ?_⟩
  rw [h1]
  simpa using h2 0 (by simp)

/-- C209, limit: the old frames are deleted even if the call then fails. -/
theorem deleted_before_checks (fn : Fn) (relative : Bool) (view0 : View) (azels : List View) (nframes : List ℤ) (dir : List (Text × View)) (e : Err)
    (h : frames relative view0 azels nframes = .error e) : animate fn true relative view0 azels nframes dir = (predelete fn dir, .error e) := by
  simp only [animate, h, if_true]

/-! ## Movies: proofs -/

theorem globbed_frame (fn : Fn) (pre post : Text) (hp : pieces fn = (pre, [post])) (w i : ℕ) : globbed pre post (frameName fn w i) = true := by
  unfold globbed frameName
  rw [hp]
  simp only [List.flatMap_cons, List.flatMap_nil, List.append_nil, Bool.and_eq_true, List.isPrefixOf_iff_prefix, List.isSuffixOf_iff_suffix, decide_eq_true_eq]
  refine ⟨⟨List.prefix_append _ _, ?_⟩, by simp⟩
  rw [← List.append_assoc]; exact List.suffix_append _ _

/-- C210: the movie of an animation: if the files that fit the name are exactly its n frames, listed in any order, ffmpeg is called with a pattern that gives, for
every number below n, the name of this frame. -/
theorem movie_finds_frames (fn : Fn) (pre post : Text) (hp : pieces fn = (pre, [post])) (n w : ℕ) (hn : 0 < n) (hw : ∀ i, i < n → (pad w i).length = w)
    (dir : List Text) (hd : ∀ f, f ∈ dir ∧ globbed pre post f = true ↔ ∃ i, i < n ∧ f = frameName fn w i) (run : Bool) :
    ∃ pat, movie fn dir false false 0 run = (true, .ok pat) ∧ ∀ i, i < n → expand pat i = frameName fn w i := by
  have hname : ∀ i, frameName fn w i = pre ++ pad w i ++ post := by
    intro i; unfold frameName; rw [hp]; simp
  have hmem : frameName fn w 0 ∈ dir.filter (globbed pre post) := by
    rw [List.mem_filter]; exact (hd _).2 ⟨0, hn, rfl⟩
  unfold movie
  rw [hp]
  simp only [Bool.or_self, Bool.false_eq_true, if_false]
  cases hf : dir.filter (globbed pre post) with
  | nil => rw [hf] at hmem; simp at hmem
  | cons f l =>
    have : f ∈ dir.filter (globbed pre post) := by rw [hf]; simp
    obtain ⟨i, hi, rfl⟩ := (hd f).1 (List.mem_filter.1 this)
    refine ⟨_, rfl, fun j hj => ?_⟩
    have : (frameName fn w i).length - pre.length - post.length = w := by
      rw [hname]; simp [hw i hi]
    rw [this, hname]
    rfl

/-- C210, limits: ffmpeg runs even with `run=False`; options for ffmpeg are a NameError; names with several numbers, accepted by the animation, are a ValueError;
so is a name that fits no file, or a failure of ffmpeg. -/
theorem movie_limits (fn : Fn) (dir : List Text) (ret : ℤ) (inops outops run : Bool) :
    movie fn dir inops outops ret run = movie fn dir inops outops ret true ∧
    (inops || outops → (∃ p, (pieces fn).2 = [p]) → movie fn dir inops outops ret run = (false, .error .name)) ∧
    (∀ a b c rest, fn = .parts a b (c :: rest) → movie fn dir inops outops ret run = (false, .error .value)) ∧
    (ret ≠ 0 → ∀ p, (movie fn dir inops outops ret run).2 ≠ .ok p) := by
  refine ⟨rfl, fun h ⟨p, hp⟩ => ?_, ?_, fun hr p => ?_⟩
  · unfold movie
    rw [show pieces fn = ((pieces fn).1, [p]) by rw [← hp]]
    simp [h]
  · rintro a b c rest rfl
    rfl
  · unfold movie
    split
    · split_ifs
      · simp
      · split
        · simp
        · simp
    · simp

/-- Four frames to two absolute key frames; the files and the movie. -/
example : frames false (0, 0) [(10, 0), (10, 30)] [2, 2] = .ok ((0, 0), [(5, 0), (5, 0), (0, 15), (0, 15)]) := by
  norm_num [frames, steps, Except.map]
  rfl

example : frameName (.plain "f".toList ".png".toList) 2 7 = "f_07.png".toList := by decide +kernel

example : movie (.plain "f".toList ".png".toList) ["f_1.png".toList, "g".toList, "f_0.png".toList] false false 0 false =
    (true, .ok ("f_".toList, 1, ".png".toList)) := by rfl

/-- A file of an older, longer animation that comes first hides all frames. -/
example : ∃ pat, movie (.plain "f".toList ".png".toList) ["f_10.png".toList, "f_0.png".toList] false false 0 true = (true, .ok pat) ∧
    expand pat 0 = "f_00.png".toList := ⟨_, rfl, by decide +kernel⟩

end Verif.Animate
