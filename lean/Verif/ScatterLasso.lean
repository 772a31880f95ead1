import Mathlib.Data.List.Basic
import Mathlib.Data.List.Count
import Mathlib.Data.List.Range
import Mathlib.Algebra.Order.Field.Basic
import Mathlib.Data.Rat.Defs
import Mathlib.Tactic.FieldSimp
import Mathlib.Tactic.Ring
import Mathlib.Tactic.Linarith

/-!
# Selecting points with a lasso (astropysics/plotting.py 684-787) and margins in points (788-807) (C206, C207)

Drawing is left out.  Which points lie inside a lasso (`points_inside_poly`) is a parameter of the release event.  Other widgets that hold the lock of the canvas
are left out.  Points are pairs of coordinates that compare as numbers do (no NaN).
-/

namespace Verif.ScatterLasso

inductive Err
  | type
  | index
  | value
  | attribute
  deriving DecidableEq

variable {C V K : Type}

/-- The object after `__init__`, plotting.py 685-698, and what the canvas knows: whether `onpress` is connected and whether a lasso is being drawn (`las`). -/
structure St (C V K : Type) where
  xys : Option (List (List (C × C))) := none
  inds : Option (List (List ℕ)) := none
  connected : Bool := false
  las : Bool := false
  xyin : Option (List (C × C)) := none
  keydict : Option (List (K × V)) := none
  keyx : Option String := none
  keyy : Option String := none

/-- What happens: `activateLasso` with the artists of the axes (those without `_offsets` are None), a press of a button in the axes or outside, the end of a
lasso with the points inside it, `deactivateLasso`. -/
inductive Ev (C : Type)
  | activate (children : List (Option (List (C × C))))
  | press (inaxes : Bool)
  | release (inside : C × C → Bool)
  | deactivate

/-- `np.nonzero(points_inside_poly(xy,verts))[0]`. -/
def insideOf (p : C × C → Bool) (xy : List (C × C)) : List ℕ := (List.range xy.length).filter fun i => (xy[i]?.map p).getD false

/-- plotting.py 700-737: a press while a lasso is drawn is ignored; the callback only comes for a lasso that was begun. -/
def step (s : St C V K) : Ev C → St C V K
  | .activate ch => { s with xys := some (ch.filterMap id), connected := true }
  | .press inaxes => if s.connected && !s.las && inaxes then { s with las := true } else s
  | .release p => if s.las then { s with inds := some ((s.xys.getD []).map (insideOf p)), las := false } else s
  | .deactivate => { s with connected := false }

def run (s : St C V K) (h : List (Ev C)) : St C V K := h.foldl step s

/-- `self.xys[i][ind]` for an array of indices. -/
def takeAll (xy : List (C × C)) : List ℕ → Except Err (List (C × C))
  | [] => .ok []
  | i :: is => match xy[i]? with
    | none => .error .index
    | some q => match takeAll xy is with
      | .error e => .error e
      | .ok l => .ok (q :: l)

/-- `getLastXYs`, plotting.py 739-743. -/
def lastFrom (xys : List (List (C × C))) : List (List ℕ) → Except Err (List (C × C))
  | [] => .ok []
  | ind :: inds => match xys with
    | [] => .error .index
    | xy :: xys => match takeAll xy ind with
      | .error e => .error e
      | .ok a => match lastFrom xys inds with
        | .error e => .error e
        | .ok b => .ok (a ++ b)

def getLastXYs (s : St C V K) : Except Err (List (C × C)) := match s.inds with
  | none => .error .type
  | some inds => lastFrom (s.xys.getD []) inds

/-- The loops of plotting.py 757-763. -/
def matches_ [DecidableEq C] (sel xyin : List (C × C)) : List ℕ :=
  sel.flatMap fun q => (List.range xyin.length).filter fun i => xyin[i]? = some q

/-- What `matchLastXYs` gives: an array of numbers, or the entries of the map. -/
inductive Res (K : Type)
  | arr (l : List ℕ)
  | keys (l : List K)
  deriving DecidableEq

/-- `matchLastXYs`, plotting.py 745-768; `map` must be as long as the points.  An empty map counts as none. -/
def matchLastXYs [DecidableEq C] (s : St C V K) (xyin : Option (List (C × C))) (map : Option (List K)) : St C V K × Except Err (Res K) :=
  let xy := xyin.or s.xyin
  let s := { s with xyin := xy }
  match xy with
  | none => (s, .error .value)
  | some xy => match getLastXYs s with
    | .error e => (s, .error e)
    | .ok sel => (s, .ok (match map with
      | some (k :: ks) => .keys ((matches_ sel xy).filterMap fun i => (k :: ks)[i]?)
      | _ => .arr (matches_ sel xy)))

/-- `[(getattr(v,xattr),getattr(v,yattr)) for v in d.values()]`. -/
def points (attr : V → String → Option C) (x y : String) : List V → Option (List (C × C))
  | [] => some []
  | v :: vs => match attr v x, attr v y, points attr x y vs with
    | some a, some b, some l => some ((a, b) :: l)
    | _, _, _ => none

/-- `getLastKeys`, plotting.py 773-787: a dictionary as its items, in its order. -/
def getLastKeys [DecidableEq C] (attr : V → String → Option C) (s : St C V K) (d : Option (List (K × V))) (xattr yattr : Option String) :
    St C V K × Except Err (Res K) :=
  let s := { s with keydict := d.or s.keydict, keyx := xattr.or s.keyx, keyy := yattr.or s.keyy }
  match s.keydict, s.keyx, s.keyy with
  | some d, some x, some y => match points attr x y (d.map (·.2)) with
    | none => (s, .error .attribute)
    | some xys => matchLastXYs s (some xys) (some (d.map (·.1)))
  | _, _, _ => (s, .error .value)

/-! ## The points selected -/

theorem takeAll_filter (p : C × C → Bool) (xy : List (C × C)) (l : List ℕ) (hl : ∀ i ∈ l, i < xy.length) :
    takeAll xy l = .ok (l.filterMap fun i => xy[i]?) := by
  induction l with
  | nil => rfl
  | cons i l ih =>
    have hi := hl i (by simp)
    unfold takeAll
    rw [List.getElem?_eq_getElem hi, ih fun j hj => hl j (by simp [hj])]
    simp [List.getElem?_eq_getElem hi]

theorem filterMap_inside (p : C × C → Bool) (xy : List (C × C)) : (insideOf p xy).filterMap (fun i => xy[i]?) = xy.filter p := by
  unfold insideOf
  induction xy using List.reverseRecOn with
  | nil => rfl
  | append_singleton xy a ih =>
    rw [List.length_append, List.length_singleton, List.range_succ, List.filter_append, List.filterMap_append, List.filter_append]
    congr 1
    · rw [← ih]
      have h1 : (List.range xy.length).filter (fun i => ((xy ++ [a])[i]?.map p).getD false) = (List.range xy.length).filter fun i => (xy[i]?.map p).getD false := by
        apply List.filter_congr
        intro i hi
        rw [List.getElem?_append_left (List.mem_range.1 hi)]
      rw [h1]
      apply List.filterMap_congr
      intro i hi
      rw [List.getElem?_append_left (List.mem_range.1 (List.mem_filter.1 hi).1)]
    · cases hp : p a <;> simp [hp]

theorem last_inside (p : C × C → Bool) (xys : List (List (C × C))) : lastFrom xys (xys.map (insideOf p)) = .ok ((xys.flatten).filter p) := by
  induction xys with
  | nil => rfl
  | cons xy xys ih =>
    simp only [List.map_cons, lastFrom, ih]
    rw [takeAll_filter p xy (insideOf p xy) (fun i hi => List.mem_range.1 (List.mem_filter.1 hi).1), filterMap_inside]
    simp

/-- Nothing that changes the selection or the points it refers to. -/
def Quiet : Ev C → Prop
  | .activate _ => False
  | .release _ => False
  | _ => True

theorem run_quiet (s : St C V K) (h : List (Ev C)) (hq : ∀ e ∈ h, Quiet e) : (run s h).inds = s.inds ∧ (run s h).xys = s.xys := by
  induction h generalizing s with
  | nil => exact ⟨rfl, rfl⟩
  | cons e h ih =>
    obtain ⟨h1, h2⟩ := ih (step s e) fun x hx => hq x (by simp [hx])
    have he := hq e (by simp)
    have : (step s e).inds = s.inds ∧ (step s e).xys = s.xys := by
      cases e with
      | activate => exact he.elim
      | release => exact he.elim
      | deactivate => exact ⟨rfl, rfl⟩
      | press b => simp only [step]; split_ifs <;> exact ⟨rfl, rfl⟩
    exact ⟨h1.trans this.1, h2.trans this.2⟩

/-- C206: after any history, activating, pressing in the axes and closing a lasso selects exactly the points of the artists that have points and lie inside, in
order; later presses and a deactivation keep the selection. -/
theorem lasso_selects (s : St C V K) (before : List (Ev C)) (ch : List (Option (List (C × C)))) (p : C × C → Bool) (after : List (Ev C))
    (hq : ∀ e ∈ after, Quiet e) :
    getLastXYs (run s (before ++ [.activate ch, .press true, .release p] ++ after)) = .ok (((ch.filterMap id).flatten).filter p) := by
  have e : run s (before ++ [.activate ch, .press true, .release p] ++ after) = run (run s (before ++ [.activate ch, .press true, .release p])) after := by
    simp [run, List.foldl_append]
  rw [e]
  obtain ⟨h1, h2⟩ := run_quiet (run s (before ++ [.activate ch, .press true, .release p])) after hq
  unfold getLastXYs
  rw [h1, h2]
  have e2 : run s (before ++ [.activate ch, .press true, .release p]) = step (step (step (run s before) (.activate ch)) (.press true)) (.release p) := by
    simp [run, List.foldl_append]
  rw [e2]
  generalize run s before = t
  have hlas : (step (step t (.activate ch)) (.press true)).las = true ∧ (step (step t (.activate ch)) (.press true)).xys = some (ch.filterMap id) := by
    cases hl : t.las <;> simp [step, hl]
  generalize hu : step (step t (.activate ch)) (.press true) = u at hlas
  obtain ⟨l1, l2⟩ := hlas
  simp only [step, l1, if_true, l2, Option.getD_some]
  exact last_inside p _

/-- C206: one lasso selects once: after it is closed, and until another one is begun, no release and no closing changes anything, and a press in the axes while
the tool is active begins one. -/
theorem closed_once (s : St C V K) (p q : C × C → Bool) :
    step (step s (.release p)) (.release q) = step s (.release p) ∧ (step s (.release p)).las = false ∧
    ((step s (.release p)).connected = true → (step (step s (.release p)) (.press true)).las = true) := by
  cases h : s.las <;> simp +contextual [step, h]

/-- C206: without a lasso nothing is selected: asking is a TypeError until the first lasso is closed. -/
theorem no_lasso (h : List (Ev C)) (hr : ∀ e ∈ h, ∀ p, e ≠ .release p) (xy : Option (List (C × C))) :
    getLastXYs (run ({ xyin := xy } : St C V K) h) = .error .type := by
  have : ∀ (s : St C V K) (h : List (Ev C)), (∀ e ∈ h, ∀ p, e ≠ .release p) → (run s h).inds = s.inds := by
    intro s h
    induction h generalizing s with
    | nil => intro _; rfl
    | cons e h ih =>
      intro hr
      have h1 := ih (step s e) fun x hx => hr x (by simp [hx])
      have h2 : (step s e).inds = s.inds := by
        cases e with
        | activate => rfl
        | deactivate => rfl
        | press b => simp only [step]; split_ifs <;> rfl
        | release p => exact absurd rfl (hr _ (by simp) p)
      exact h1.trans h2
  unfold getLastXYs
  rw [this _ _ hr]

/-- C206: after a deactivation presses do nothing. -/
theorem deactivated (s : St C V K) (b : Bool) : step (step s .deactivate) (.press b) = step s .deactivate := by
  simp [step]

/-- C206, limit: activating again takes the new points but keeps the numbers of the old selection: what is reported are the new points in the places of the old
ones that were inside, wherever they are now. -/
theorem stale_selection (s : St C V K) (xy xy' : List (C × C)) (p : C × C → Bool) (hl : xy'.length = xy.length) :
    getLastXYs (run s [.activate [some xy], .press true, .release p, .activate [some xy']]) = .ok (((xy.zip xy').filter fun a => p a.1).map (·.2)) := by
  have e : (run s [.activate [some xy], .press true, .release p, .activate [some xy']]).inds = some [insideOf p xy] ∧
      (run s [.activate [some xy], .press true, .release p, .activate [some xy']]).xys = some [xy'] := by
    cases hs : s.las <;> simp [run, step, hs]
  unfold getLastXYs
  rw [e.1, e.2]
  simp only [Option.getD_some, lastFrom]
  rw [takeAll_filter p xy' (insideOf p xy) (fun i hi => by rw [hl]; exact List.mem_range.1 (List.mem_filter.1 hi).1)]
  simp only [List.append_nil]
  congr 1
  rw [← filterMap_inside (fun a : (C × C) × (C × C) => p a.1) (xy.zip xy'), List.map_filterMap]
  have h1 : insideOf (fun a : (C × C) × (C × C) => p a.1) (xy.zip xy') = insideOf p xy := by
    unfold insideOf
    rw [List.length_zip, hl, min_self]
    apply List.filter_congr
    intro i hi
    have hi := List.mem_range.1 hi
    simp [List.getElem?_eq_getElem, hi, hl]
  rw [h1]
  apply List.filterMap_congr
  intro i hi
  have hi := List.mem_range.1 (List.mem_filter.1 hi).1
  simp [List.getElem?_eq_getElem, hi, hl]

/-! ## Matching the selection -/

theorem count_eq (xyin : List (C × C)) [DecidableEq C] (q : C × C) (i : ℕ) :
    ((List.range xyin.length).filter fun i => xyin[i]? = some q).count i = if xyin[i]? = some q then 1 else 0 := by
  by_cases h : xyin[i]? = some q
  · have hi : i < xyin.length := (List.getElem?_eq_some_iff.1 h).1
    rw [if_pos h, List.count_filter (by simpa using h)]
    rw [List.Nodup.count List.nodup_range, if_pos (List.mem_range.2 hi)]
  · rw [if_neg h]
    apply List.count_eq_zero_of_not_mem
    intro hm
    exact h (by simpa using (List.mem_filter.1 hm).2)

theorem matches_count [DecidableEq C] (sel xyin : List (C × C)) (i : ℕ) :
    (matches_ sel xyin).count i = match xyin[i]? with
      | none => 0
      | some q => sel.count q := by
  unfold matches_
  induction sel with
  | nil => cases xyin[i]? <;> rfl
  | cons a sel ih =>
    rw [List.flatMap_cons, List.count_append, ih, count_eq]
    cases h : xyin[i]? with
    | none => simp
    | some q =>
      simp only [Option.some.injEq, List.count_cons]
      by_cases hq : q = a
      · subst hq; simp; omega
      · rw [if_neg hq]
        simp [Ne.symm hq]

/-- C206: matching against a table of points gives the number of every row that equals a selected point, as often as this point was selected, and no other. -/
theorem match_rows [DecidableEq C] (s : St C V K) (xy sel : List (C × C)) (hs : getLastXYs s = .ok sel) :
    ∃ l, (matchLastXYs s (some xy) none).2 = .ok (.arr l) ∧ (∀ i, i ∈ l ↔ ∃ q ∈ sel, xy[i]? = some q) ∧
      (∀ i q, xy[i]? = some q → l.count i = sel.count q) := by
  refine ⟨matches_ sel xy, ?_, fun i => ?_, fun i q hq => ?_⟩
  · unfold matchLastXYs
    have : getLastXYs ({ s with xyin := (some xy).or s.xyin } : St C V K) = .ok sel := hs
    simp only [Option.some_or] at *
    rw [this]
  · rw [← List.count_pos_iff, matches_count]
    cases h : xy[i]? with
    | none => simp
    | some q =>
      simp only [List.count_pos_iff, Option.some.injEq]
      exact ⟨fun hq => ⟨q, hq, rfl⟩, fun ⟨q', h1, h2⟩ => h2 ▸ h1⟩
  · rw [matches_count, hq]

theorem points_spec (attr : V → String → Option C) (x y : String) (vs : List V) (ps : List (C × C)) (h : points attr x y vs = some ps) :
    ps.length = vs.length ∧ ∀ (i : ℕ) (v : V), vs[i]? = some v → ∃ a b, attr v x = some a ∧ attr v y = some b ∧ ps[i]? = some (a, b) := by
  induction vs generalizing ps with
  | nil => simp only [points, Option.some.injEq] at h; subst h; simp
  | cons v vs ih =>
    unfold points at h
    split at h
    · next a b l ha hb hl =>
      injection h with h; subst h
      obtain ⟨h1, h2⟩ := ih l hl
      refine ⟨by simp [h1], fun i w hw => ?_⟩
      cases i with
      | zero => simp only [List.getElem?_cons_zero, Option.some.injEq] at hw; subst hw; exact ⟨a, b, ha, hb, rfl⟩
      | succ i => simpa using h2 i w (by simpa using hw)
    · exact absurd h (by simp)

theorem points_all (attr : V → String → Option C) (x y : String) (vs : List V) (h : ∀ v ∈ vs, (attr v x).isSome ∧ (attr v y).isSome) :
    ∃ ps, points attr x y vs = some ps := by
  induction vs with
  | nil => exact ⟨[], rfl⟩
  | cons v vs ih =>
    obtain ⟨ps, hp⟩ := ih fun w hw => h w (by simp [hw])
    obtain ⟨h1, h2⟩ := h v (by simp)
    obtain ⟨a, ha⟩ := Option.isSome_iff_exists.1 h1
    obtain ⟨b, hb⟩ := Option.isSome_iff_exists.1 h2
    exact ⟨(a, b) :: ps, by simp [points, ha, hb, hp]⟩

/-- C206: the keys of a nonempty dictionary of objects that have both attributes: exactly the keys of the objects whose coordinates equal a selected point. -/
theorem keys_selected [DecidableEq C] (attr : V → String → Option C) (s : St C V K) (d : List (K × V)) (hd : d ≠ []) (x y : String) (sel : List (C × C))
    (hs : getLastXYs s = .ok sel) (ha : ∀ kv ∈ d, (attr kv.2 x).isSome ∧ (attr kv.2 y).isSome) :
    ∃ l, (getLastKeys attr s (some d) (some x) (some y)).2 = .ok (.keys l) ∧
      ∀ k, k ∈ l ↔ ∃ v a b, (k, v) ∈ d ∧ attr v x = some a ∧ attr v y = some b ∧ (a, b) ∈ sel := by
  obtain ⟨ps, hps⟩ := points_all attr x y (d.map (·.2)) (by
    intro v hv
    obtain ⟨kv, h1, rfl⟩ := List.mem_map.1 hv
    exact ha kv h1)
  obtain ⟨hlen, hp⟩ := points_spec attr x y _ ps hps
  refine ⟨(matches_ sel ps).filterMap fun i => (d.map (·.1))[i]?, ?_, fun k => ?_⟩
  · unfold getLastKeys
    simp only [Option.some_or, hps]
    unfold matchLastXYs
    obtain ⟨kv, d', rfl⟩ := List.exists_cons_of_ne_nil hd
    simp only [Option.some_or]
    rw [show getLastXYs ({ s with keydict := some (kv :: d'), keyx := some x, keyy := some y, xyin := some ps } : St C V K) = .ok sel from hs]
    simp
  · have hm : ∀ i, i ∈ matches_ sel ps ↔ ∃ q ∈ sel, ps[i]? = some q := by
      intro i
      rw [← List.count_pos_iff, matches_count]
      cases h : ps[i]? with
      | none => simp
      | some q =>
        simp only [List.count_pos_iff, Option.some.injEq]
        exact ⟨fun hq => ⟨q, hq, rfl⟩, fun ⟨q', h1, h2⟩ => h2 ▸ h1⟩
    rw [List.mem_filterMap]
    constructor
    · rintro ⟨i, hi, hk⟩
      rw [List.getElem?_map, Option.map_eq_some_iff] at hk
      obtain ⟨⟨k', v⟩, hkv, rfl⟩ := hk
      obtain ⟨q, hq, hpq⟩ := (hm i).1 hi
      obtain ⟨a, b, h1, h2, h3⟩ := hp i v (by rw [List.getElem?_map, hkv]; rfl)
      rw [h3] at hpq
      injection hpq with hpq
      exact ⟨v, a, b, List.mem_of_getElem? hkv, h1, h2, hpq ▸ hq⟩
    · rintro ⟨v, a, b, hkv, h1, h2, hab⟩
      obtain ⟨i, hi⟩ := List.mem_iff_getElem?.1 hkv
      obtain ⟨a', b', h1', h2', h3⟩ := hp i v (by rw [List.getElem?_map, hi]; rfl)
      rw [h1] at h1'; rw [h2] at h2'
      injection h1' with h1'; injection h2' with h2'
      subst h1' h2'
      exact ⟨i, (hm i).2 ⟨_, hab, h3⟩, by rw [List.getElem?_map, hi]; rfl⟩

/-- C206: the dictionary and the points given last are used when none are given. -/
theorem remembered [DecidableEq C] (attr : V → String → Option C) (s : St C V K) (d : List (K × V)) (x y : String) (xy : List (C × C)) (m : Option (List K)) :
    (getLastKeys attr (getLastKeys attr s (some d) (some x) (some y)).1 none (some x) (some y)).2 = (getLastKeys attr s (some d) (some x) (some y)).2 ∧
    (matchLastXYs (matchLastXYs s (some xy) m).1 none m).2 = (matchLastXYs s (some xy) m).2 := by
  constructor
  · unfold getLastKeys
    simp only [Option.some_or, Option.none_or]
    cases h : points attr x y (d.map (·.2)) with
    | none => simp [h]
    | some ps =>
      simp only
      unfold matchLastXYs getLastXYs
      simp only [Option.some_or]
      cases s.inds with
      | none => simp [h]
      | some inds =>
        simp only
        cases hl : lastFrom (s.xys.getD []) inds <;> simp [h, hl]
  · unfold matchLastXYs getLastXYs
    simp only [Option.some_or]
    cases s.inds with
    | none => simp
    | some inds =>
      simp only
      cases h : lastFrom (s.xys.getD []) inds <;> simp [h]

/-- C206, limit: the names of the attributes are not remembered, since they default to 'x' and 'y'; asking for keys replaces the points remembered; and an empty
dictionary gives an array instead of a list. -/
theorem forgotten [DecidableEq C] (attr : V → String → Option C) (s : St C V K) (d : List (K × V)) (x y : String) (ps : List (C × C))
    (hp : points attr x y (d.map (·.2)) = some ps) (sel : List (C × C)) (hs : getLastXYs s = .ok sel) :
    (getLastKeys attr s (some d) (some x) (some y)).1.xyin = some ps ∧
    (getLastKeys attr (getLastKeys attr s (some d) (some x) (some y)).1 none (some "x") (some "y")).1.keyx = some "x" ∧
    (getLastKeys attr s (some []) (some x) (some y)).2 = .ok (.arr []) := by
  refine ⟨?_, ?_, ?_⟩
  · unfold getLastKeys
    simp only [Option.some_or, hp]
    unfold matchLastXYs
    simp only [Option.some_or]
    split <;> rfl
  · generalize (getLastKeys attr s (some d) (some x) (some y)).1 = t
    unfold getLastKeys
    simp only [Option.some_or, Option.none_or]
    split
    · split
      · rfl
      · unfold matchLastXYs
        simp only [Option.some_or]
        split <;> simp_all
    · rfl
  · unfold getLastKeys
    simp only [Option.some_or, List.map_nil, points]
    unfold matchLastXYs
    simp only [Option.some_or]
    rw [show getLastXYs ({ s with keydict := some [], keyx := some x, keyy := some y, xyin := some [] } : St C V K) = .ok sel from hs]
    simp [matches_]

/-- Two artists with points; the lasso holds those with first coordinate above 1; a second activation moves the points. -/
example : getLastXYs (run ({} : St ℤ Unit String) [.activate [some [(1, 1), (2, 2)], none, some [(3, 0)]], .press true, .press true,
    .release fun q => decide (1 < q.1)]) = .ok [(2, 2), (3, 0)] := rfl

example : getLastXYs (run ({} : St ℤ Unit String) [.activate [some [(1, 1), (2, 2)]], .press true, .release fun q => decide (1 < q.1),
    .activate [some [(1, 1), (0, 0)]]]) = .ok [(0, 0)] := rfl

example : getLastXYs (run ({} : St ℤ Unit String) [.activate [some [(1, 1), (2, 2)]], .press true, .release fun q => decide (1 < q.1),
    .activate [some [(1, 1)]]]) = .error .index := rfl

example : (getLastKeys (fun (v : ℤ × ℤ) n => if n = "x" then some v.1 else if n = "y" then some v.2 else none)
    (run ({} : St ℤ (ℤ × ℤ) String) [.activate [some [(1, 1), (2, 2)]], .press true, .release fun q => decide (1 < q.1)])
    (some [("a", (2, 2)), ("b", (1, 1)), ("c", (2, 2))]) (some "x") (some "y")).2 = .ok (.keys ["a", "c"]) := rfl

/-! ## Margins (plotting.py 788-807) -/

/-- `subplots_adjust_points`: the six fractions given to `subplots_adjust`; `w`, `h` in inches. -/
def adjust (w h dpi : ℚ) (left bottom right top wspace hspace : Option ℚ) : Option ℚ × Option ℚ × Option ℚ × Option ℚ × Option ℚ × Option ℚ :=
  (left.map fun v => v / dpi / w, bottom.map fun v => v / dpi / h, right.map fun v => 1 - v / dpi / w, top.map fun v => 1 - v / dpi / h,
   wspace.map fun v => v / dpi / w, hspace.map fun v => v / dpi / h)

/-- C207: what is not given is left alone; every margin given becomes that many dots of the figure: the left and bottom edge of the plots lie so many dots from the
left and bottom of the figure, the right and top edge from its right and top. -/
theorem margins_in_dots (w h dpi : ℚ) (hw : 0 < w) (hh : 0 < h) (hd : 0 < dpi) (l b r t : ℚ) (ws hs : Option ℚ) :
    ∃ l' b' r' t', adjust w h dpi (some l) (some b) (some r) (some t) ws hs = (some l', some b', some r', some t', (adjust w h dpi none none none none ws hs).2.2.2.2) ∧
      l' * (w * dpi) = l ∧ b' * (h * dpi) = b ∧ (1 - r') * (w * dpi) = r ∧ (1 - t') * (h * dpi) = t := by
  refine ⟨_, _, _, _, rfl, ?_, ?_, ?_, ?_⟩
  · field_simp
  · field_simp
  · field_simp; ring
  · field_simp; ring

/-- C207: the spaces between plots too become that many dots of the figure. -/
theorem spaces_in_dots (w h dpi : ℚ) (hw : 0 < w) (hh : 0 < h) (hd : 0 < dpi) (l b r t : Option ℚ) (ws hs : ℚ) :
    ∃ ws' hs', (adjust w h dpi l b r t (some ws) (some hs)).2.2.2.2 = (some ws', some hs') ∧ ws' * (w * dpi) = ws ∧ hs' * (h * dpi) = hs := by
  refine ⟨_, _, rfl, ?_, ?_⟩ <;> field_simp

/-- C207: each of the six is left alone exactly if it is not given. -/
theorem not_given (w h dpi : ℚ) (l b r t ws hs : Option ℚ) :
    ((adjust w h dpi l b r t ws hs).1 = none ↔ l = none) ∧ ((adjust w h dpi l b r t ws hs).2.1 = none ↔ b = none) ∧
    ((adjust w h dpi l b r t ws hs).2.2.1 = none ↔ r = none) ∧ ((adjust w h dpi l b r t ws hs).2.2.2.1 = none ↔ t = none) ∧
    ((adjust w h dpi l b r t ws hs).2.2.2.2.1 = none ↔ ws = none) ∧ ((adjust w h dpi l b r t ws hs).2.2.2.2.2 = none ↔ hs = none) := by
  simp [adjust]

/-- C207, limit: a point is 1/72 inch; the left margin of `l` is `l` points only at 72 dots per inch (or for a zero margin). -/
theorem points_only_at_72 (w h dpi l : ℚ) (hw : 0 < w) (hd : 0 < dpi) (b r t ws hs : Option ℚ) :
    (adjust w h dpi (some l) b r t ws hs).1 = some (l / 72 / w) ↔ dpi = 72 ∨ l = 0 := by
  simp only [adjust, Option.map_some, Option.some.injEq]
  rw [div_left_inj' hw.ne']
  constructor
  · intro h
    rw [div_eq_div_iff hd.ne' (by norm_num)] at h
    by_cases hl : l = 0
    · exact .inr hl
    · exact .inl (mul_left_cancel₀ hl h.symm)
  · rintro (rfl | rfl)
    · rfl
    · simp

example : adjust 8 6 100 (some 40) none (some 80) none (some 8) none = (some (1 / 20), none, some (9 / 10), none, some (1 / 100), none) := by
  norm_num [adjust]

end Verif.ScatterLasso
