import Verif.PlotAction

/-! # Action nodes: theorems (C159, C160; astropysics/objcat.py 425-497, 3482-3750) -/

namespace Verif.PlotAction

variable {V : Type}

/-! ## Attributes -/

theorem setattr_ro (n : Node V) (k : String) (v : V) : (setattr n k v).1.readOnly = n.readOnly := by
  rw [setattr]; split <;> rfl

theorem setAll_ro (n : Node V) (l : List (String × V)) : (setAll n l).1.readOnly = n.readOnly := by
  induction l generalizing n with
  | nil => rfl
  | cons p l ih =>
    simp only [setAll]
    cases (setattr n p.1 p.2).2 with
    | some e => exact setattr_ro n p.1 p.2
    | none => rw [← setattr_ro n p.1 p.2]; exact ih _

theorem setattr_ok (n : Node V) (k : String) (v : V) (h : n.readOnly k = false) :
    setattr n k v = ({ n with attrs := fun k' => if k' = k then some v else n.attrs k' }, none) := by
  simp [setattr, h]

theorem setAll_attrs : ∀ (l : List (String × V)) (n : Node V), (∀ p ∈ l, n.readOnly p.1 = false) → (l.map Prod.fst).Nodup →
    (setAll n l).2 = none ∧ (∀ k v, (k, v) ∈ l → (setAll n l).1.attrs k = some v) ∧ ∀ k, k ∉ l.map Prod.fst → (setAll n l).1.attrs k = n.attrs k
  | [], n, _, _ => ⟨rfl, by simp, fun _ _ => rfl⟩
  | p :: l, n, hr, hn => by
    have h1 := setattr_ok n p.1 p.2 (hr p (by simp))
    simp only [setAll, h1]
    rw [List.map_cons, List.nodup_cons] at hn
    obtain ⟨i1, i2, i3⟩ := setAll_attrs l { n with attrs := fun k' => if k' = p.1 then some p.2 else n.attrs k' } (fun q hq => hr q (by simp [hq])) hn.2
    refine ⟨i1, fun k v hkv => ?_, fun k hk => ?_⟩
    · rcases List.mem_cons.1 hkv with h | h
      · have hk : k ∉ l.map Prod.fst := by rw [show k = p.1 by rw [← h]]; exact hn.1
        rw [i3 k hk]
        simp [← h]
      · exact i2 k v h
    · simp only [List.map_cons, List.mem_cons, not_or] at hk
      rw [i3 k hk.2]
      simp [hk.1]

theorem getAll_ok : ∀ (l : List String) (n : Node V), (∀ k ∈ l, (n.attrs k).isSome = true) →
    ∃ old, getAll n l = .ok old ∧ old.map Prod.fst = l ∧ ∀ k v, (k, v) ∈ old → n.attrs k = some v
  | [], n, _ => ⟨[], rfl, rfl, by simp⟩
  | k :: l, n, h => by
    obtain ⟨old, h1, h2, h3⟩ := getAll_ok l n (fun x hx => h x (by simp [hx]))
    obtain ⟨v, hv⟩ := Option.isSome_iff_exists.1 (h k (by simp))
    refine ⟨(k, v) :: old, by simp only [getAll, hv, h1], by rw [List.map_cons, h2], fun k' v' hk => ?_⟩
    rcases List.mem_cons.1 hk with hk | hk
    · simp only [Prod.mk.injEq] at hk
      rw [hk.1, hk.2, hv]
    · exact h3 k' v' hk

theorem getAll_error : ∀ (l : List String) (n : Node V), (∃ k ∈ l, n.attrs k = none) → getAll n l = .error .attribute
  | [], n, h => by simp at h
  | k :: l, n, h => by
    cases hk : n.attrs k with
    | none => simp only [getAll, hk]
    | some v =>
      obtain ⟨k', hk', hn⟩ := h
      rcases List.mem_cons.1 hk' with e | e
      · rw [e, hk] at hn; simp at hn
      · simp only [getAll, hk, getAll_error l n ⟨k', e, hn⟩]

/-- C159.  The plot is made with the given values, and after the call, whatever the plot did or raised, every named attribute has its
old value and every other one has what the plot left; the exception of the plot is the exception of the call. -/
theorem temporary (order : List (String × V) → List (String × V)) (horder : ∀ l, List.Perm (order l) l)
    (draw : Node V → Node V × Option Err) (n : Node V) (kwargs : List (String × V)) (hnd : (kwargs.map Prod.fst).Nodup)
    (hex : ∀ p ∈ kwargs, (n.attrs p.1).isSome = true) (hro : ∀ p ∈ kwargs, n.readOnly p.1 = false)
    (hdraw : ∀ m, (draw m).1.readOnly = m.readOnly) :
    ∃ m : Node V, (∀ p ∈ kwargs, m.attrs p.1 = some p.2) ∧ (∀ k, k ∉ kwargs.map Prod.fst → m.attrs k = n.attrs k) ∧
      (doAction order draw n kwargs).2 = (draw m).2 ∧
      (∀ k, k ∈ kwargs.map Prod.fst → (doAction order draw n kwargs).1.attrs k = n.attrs k) ∧
      ∀ k, k ∉ kwargs.map Prod.fst → (doAction order draw n kwargs).1.attrs k = (draw m).1.attrs k := by
  obtain ⟨s1, s2, s3⟩ := setAll_attrs kwargs n hro hnd
  obtain ⟨old, o1, o2, o3⟩ := getAll_ok (kwargs.map Prod.fst) n (fun k hk => by
    obtain ⟨p, hp, rfl⟩ := List.mem_map.1 hk
    exact hex p hp)
  have hk : ((order old).map Prod.fst).Perm (kwargs.map Prod.fst) := by rw [← o2]; exact (horder old).map _
  have hro' : ∀ p ∈ order old, (draw (setAll n kwargs).1).1.readOnly p.1 = false := by
    intro p hp
    rw [hdraw, setAll_ro]
    have : p.1 ∈ kwargs.map Prod.fst := hk.subset (List.mem_map.2 ⟨p, hp, rfl⟩)
    obtain ⟨q, hq, he⟩ := List.mem_map.1 this
    rw [← he]; exact hro q hq
  obtain ⟨t1, t2, t3⟩ := setAll_attrs (order old) (draw (setAll n kwargs).1).1 hro' (hk.nodup_iff.2 hnd)
  refine ⟨(setAll n kwargs).1, fun p hp => s2 p.1 p.2 hp, s3, ?_, fun k hkk => ?_, fun k hkk => ?_⟩
  · simp only [doAction, o1, s1, t1]
  · simp only [doAction, o1, s1, t1]
    obtain ⟨q, hq, he⟩ := List.mem_map.1 (hk.symm.subset hkk)
    rw [← he, t2 q.1 q.2 hq, o3 q.1 q.2 ((horder old).subset hq)]
  · simp only [doAction, o1, s1, t1]
    exact t3 k (fun h => hkk (hk.subset h))

/-- C159.  A keyword that is no attribute raises AttributeError, and nothing is drawn or changed. -/
theorem unknown_keyword (order : List (String × V) → List (String × V)) (draw : Node V → Node V × Option Err) (n : Node V) (kwargs : List (String × V))
    (h : ∃ k ∈ kwargs.map Prod.fst, n.attrs k = none) : doAction order draw n kwargs = (n, some .attribute) := by
  simp only [doAction, getAll_error _ n h]

/-- C159.  With the name of a read-only property among the keywords the call fails and can leave another attribute changed for good: the old values are put back
one by one until the property stops it. -/
theorem read_only_leaks (n : Node V) (a b : String) (va vb va' vb' : V) (hab : a ≠ b) (ha : n.attrs a = some va) (hb : n.attrs b = some vb)
    (ra : n.readOnly a = false) (rb : n.readOnly b = true) (draw : Node V → Node V × Option Err) :
    (doAction List.reverse draw n [(a, va'), (b, vb')]).2 = some .attribute ∧
    (doAction List.reverse draw n [(a, va'), (b, vb')]).1.attrs a = some va' := by
  have : doAction List.reverse draw n [(a, va'), (b, vb')] = ({ n with attrs := fun k' => if k' = a then some va' else n.attrs k' }, some .attribute) := by
    simp [doAction, getAll, ha, hb, setAll, setattr, ra, rb]
  rw [this]
  simp

/-! ## The constructor -/

/-- The value a keyword or the default gives. -/
def given (kwargs : List (String × V)) (k : String) (v : V) : V :=
  match kwargs.find? (fun p => p.1 == k) with
  | some p => p.2
  | none => v

theorem find?_filter_ne {kw : List (String × V)} {k k' : String} (h : k' ≠ k) :
    (kw.filter fun q => q.1 != k).find? (fun p => p.1 == k') = kw.find? (fun p => p.1 == k') := by
  induction kw with
  | nil => rfl
  | cons p kw ih =>
    by_cases hp : p.1 = k
    · rw [List.filter_cons_of_neg (by simp [hp]), ih, List.find?_cons_of_neg (by simp [hp, Ne.symm h])]
    · rw [List.filter_cons_of_pos (by simp [hp])]
      by_cases hp' : p.1 = k'
      · rw [List.find?_cons_of_pos (by simp [hp']), List.find?_cons_of_pos (by simp [hp'])]
      · rw [List.find?_cons_of_neg (by simp [hp']), List.find?_cons_of_neg (by simp [hp']), ih]

theorem initAttrs_spec : ∀ (ds : List (String × V)) (n : Node V) (kw : List (String × V)), (ds.map Prod.fst).Nodup → (∀ p ∈ ds, n.readOnly p.1 = false) →
    (∀ k v, (k, v) ∈ ds → (initAttrs n ds kw).1.attrs k = some (given kw k v)) ∧
    (∀ k, k ∉ ds.map Prod.fst → (initAttrs n ds kw).1.attrs k = n.attrs k) ∧
    (initAttrs n ds kw).2 = kw.filter fun q => decide (q.1 ∉ ds.map Prod.fst)
  | [], n, kw, _, _ => ⟨by simp, fun _ _ => rfl, by simp [initAttrs]⟩
  | (k, v) :: ds, n, kw, hnd, hro => by
    rw [List.map_cons, List.nodup_cons] at hnd
    have hro' : ∀ (w : V), ∀ p ∈ ds, (setattr n k w).1.readOnly p.1 = false := fun w p hp => by rw [setattr_ro]; exact hro p (by simp [hp])
    have hset : ∀ w : V, (setattr n k w).1.attrs = fun k' => if k' = k then some w else n.attrs k' := fun w => by rw [setattr_ok n k w (hro (k, v) (by simp))]
    cases hf : kw.find? (fun p => p.1 == k) with
    | some p =>
      obtain ⟨i1, i2, i3⟩ := initAttrs_spec ds (setattr n k p.2).1 (kw.filter fun q => q.1 != k) hnd.2 (hro' p.2)
      simp only [initAttrs, hf]
      refine ⟨fun k' v' hk' => ?_, fun k' hk' => ?_, ?_⟩
      · rcases List.mem_cons.1 hk' with h | h
        · simp only [Prod.mk.injEq] at h
          rw [h.1, i2 k hnd.1, hset]
          simp [given, hf]
        · rw [i1 k' v' h]
          have hne : k' ≠ k := fun e => hnd.1 (e ▸ List.mem_map.2 ⟨_, h, rfl⟩)
          rw [given, given, find?_filter_ne hne]
      · simp only [List.map_cons, List.mem_cons, not_or] at hk'
        rw [i2 k' hk'.2, hset]
        simp [hk'.1]
      · rw [i3, List.filter_filter]
        refine List.filter_congr (fun q _ => ?_)
        rw [List.map_cons]
        by_cases h1 : q.1 = k
        · simp [h1]
        · have h2 : (q.1 != k) = true := by simpa using h1
          simp [h1, h2]
    | none =>
      obtain ⟨i1, i2, i3⟩ := initAttrs_spec ds (setattr n k v).1 kw hnd.2 (hro' v)
      simp only [initAttrs, hf]
      refine ⟨fun k' v' hk' => ?_, fun k' hk' => ?_, ?_⟩
      · rcases List.mem_cons.1 hk' with h | h
        · simp only [Prod.mk.injEq] at h
          rw [h.1, i2 k hnd.1, hset]
          simp [given, hf, h.2]
        · exact i1 k' v' h
      · simp only [List.map_cons, List.mem_cons, not_or] at hk'
        rw [i2 k' hk'.2, hset]
        simp [hk'.1]
      · rw [i3]
        refine List.filter_congr (fun q hq => ?_)
        have : q.1 ≠ k := by
          intro e
          have := List.find?_eq_none.1 hf q hq
          simp [e] at this
        simp [this]

/-- C159.  A new node has every default attribute, with the value of the keyword of that name if there is one; keywords that name no default attribute, and only
they, raise TypeError.  The node is then already a child of its parent. -/
theorem construct_exact {I : Type} (n : Node V) (me : I) (children : List I) (defaults kwargs : List (String × V)) (hnd : (defaults.map Prod.fst).Nodup)
    (hro : ∀ p ∈ defaults, n.readOnly p.1 = false) :
    (∀ k v, (k, v) ∈ defaults → (construct n me (some children) defaults kwargs).1.attrs k = some (given kwargs k v)) ∧
    ((construct n me (some children) defaults kwargs).2.2 = some .type ↔ ∃ p ∈ kwargs, p.1 ∉ defaults.map Prod.fst) ∧
    (construct n me (some children) defaults kwargs).2.1 = some (children ++ [me]) := by
  obtain ⟨i1, -, i3⟩ := initAttrs_spec defaults n kwargs hnd hro
  refine ⟨i1, ?_, rfl⟩
  simp only [construct, i3]
  by_cases h : ∃ p ∈ kwargs, p.1 ∉ defaults.map Prod.fst
  · simp only [h, iff_true]
    rw [if_neg]
    rw [List.isEmpty_iff, List.filter_eq_nil_iff]
    obtain ⟨p, hp, hn⟩ := h
    exact fun x => x p hp (by simpa using hn)
  · simp only [h, iff_false]
    rw [if_pos]
    · simp
    · rw [List.isEmpty_iff, List.filter_eq_nil_iff]
      intro p hp hx
      exact h ⟨p, hp, by simpa using hx⟩

/-! ## Pickling -/

/-- C159.  A pickled action node gets its attributes back, except those its class provides a value for: they are lost. -/
theorem unpickle_exact (cls : Attrs V) (d : List (String × V)) (hnd : (d.map Prod.fst).Nodup) :
    (∀ k v, (k, v) ∈ d → cls k = none → setState cls d k = some v) ∧ ∀ k w, cls k = some w → setState cls d k = some w := by
  have main : ∀ (d : List (String × V)) (a : Attrs V), (d.map Prod.fst).Nodup →
      (∀ k v, (k, v) ∈ d → a k = none → setState a d k = some v) ∧ (∀ k w, a k = some w → setState a d k = some w) ∧
      ∀ k, k ∉ d.map Prod.fst → setState a d k = a k := by
    intro d
    induction d with
    | nil => intro a _; exact ⟨by simp, fun _ _ h => h, fun _ _ => rfl⟩
    | cons p d ih =>
      intro a hn
      rw [List.map_cons, List.nodup_cons] at hn
      have hs : setState a (p :: d) = setState (if (a p.1).isSome then a else fun k => if k = p.1 then some p.2 else a k) d := rfl
      rw [hs]
      by_cases hp : (a p.1).isSome = true
      · rw [if_pos hp]
        obtain ⟨j1, j2, j3⟩ := ih a hn.2
        refine ⟨fun k v hk ha => ?_, j2, fun k hk => j3 k (fun x => hk (by simp only [List.map_cons, List.mem_cons]; exact Or.inr x))⟩
        rcases List.mem_cons.1 hk with h | h
        · rw [← h, ha] at hp; simp at hp
        · exact j1 k v h ha
      · rw [if_neg hp]
        have hp' : a p.1 = none := by simpa using hp
        obtain ⟨j1, j2, j3⟩ := ih (fun k => if k = p.1 then some p.2 else a k) hn.2
        refine ⟨fun k v hk ha => ?_, fun k w hk => ?_, fun k hk => ?_⟩
        · rcases List.mem_cons.1 hk with h | h
          · rw [show k = p.1 by rw [← h], j2 p.1 p.2 (by simp), ← h]
          · have : k ≠ p.1 := fun e => hn.1 (e ▸ List.mem_map.2 ⟨_, h, rfl⟩)
            exact j1 k v h (by simp [this, ha])
        · have : k ≠ p.1 := fun e => by rw [e, hp'] at hk; simp at hk
          exact j2 k w (by simp [this, hk])
        · simp only [List.map_cons, List.mem_cons, not_or] at hk
          rw [j3 k hk.2]
          simp [hk.1]
  exact ⟨(main d cls hnd).1, (main d cls hnd).2.1⟩

/-! ## Plots -/

/-- The point of an object: logarithms where they are asked for. -/
noncomputable def point (logx logy : Bool) (r : Row) : Option ℝ × Option ℝ :=
  (if logx then r.x.val.map log10 else r.x.val, if logy then r.y.val.map log10 else r.y.val)

/-- Masked values come last, the others in increasing order. -/
def Increasing (l : List (Option ℝ)) : Prop := l.Pairwise fun a b => (∀ x y, a = some x → b = some y → x ≤ y) ∧ (a = none → b = none)

theorem before_iff (a b : Option ℝ) : before a b = true ↔ (∀ x y, a = some x → b = some y → x ≤ y) ∧ (a = none → b = none) := by
  cases a <;> cases b <;> simp [before]

instance : Std.Total (fun a b : Row => before a.x.val b.x.val = true) := ⟨fun a b => by
  cases a.x.val <;> cases b.x.val <;> simp [before, le_total]⟩
instance : IsTrans Row (fun a b => before a.x.val b.x.val = true) := ⟨fun a b c => by
  cases a.x.val <;> cases b.x.val <;> cases c.x.val <;> simp [before]
  exact le_trans⟩
instance : Std.Total (fun a b : Row => before a.y.val b.y.val = true) := ⟨fun a b => by
  cases a.y.val <;> cases b.y.val <;> simp [before, le_total]⟩
instance : IsTrans Row (fun a b => before a.y.val b.y.val = true) := ⟨fun a b c => by
  cases a.y.val <;> cases b.y.val <;> cases c.y.val <;> simp [before]
  exact le_trans⟩

theorem arrange_perm (logx logy : Bool) (sort : SortBy) (rows : List Row) :
    ((arrange logx logy sort rows).map fun r => (r.x.val, r.y.val)).Perm (rows.map (point logx logy)) := by
  have h : (arrange logx logy sort rows).Perm (rows.map fun r => (⟨if logx then logCell r.x else r.x, if logy then logCell r.y else r.y⟩ : Row)) := by
    cases sort with
    | no => exact List.Perm.refl _
    | x => exact List.perm_insertionSort _ _
    | y => exact List.perm_insertionSort _ _
  have h2 := h.map fun r => (r.x.val, r.y.val)
  rw [List.map_map] at h2
  have e : (rows.map ((fun r : Row => (r.x.val, r.y.val)) ∘ fun r => (⟨if logx then logCell r.x else r.x, if logy then logCell r.y else r.y⟩ : Row))) = rows.map (point logx logy) := by
    refine List.map_congr_left (fun r _ => ?_)
    simp only [Function.comp, point]
    cases logx <;> cases logy <;> rfl
  rw [e] at h2
  exact h2

/-- C160.  Lines and scatter plots show exactly one point for every object, whose coordinates are its two fields (or their logarithms); without sorting the points come in the
order of the objects, with it they are in increasing order of the coordinate, missing ones last. -/
theorem points_exact (kind : Kind) (hk : kind = .plot ∨ kind = .scatter) (logx logy : Bool) (sort : SortBy) (rows : List Row) :
    ∃ d, plot2d kind logx logy sort rows = .ok d ∧ (d.xs.zip d.ys).Perm (rows.map (point logx logy)) ∧ d.xs.length = rows.length ∧ d.ys.length = rows.length ∧
      (sort = .no → d.xs.zip d.ys = rows.map (point logx logy)) ∧ (sort = .x → Increasing d.xs) ∧ (sort = .y → Increasing d.ys) := by
  have hz : ((arrange logx logy sort rows).map fun r => r.x.val).zip ((arrange logx logy sort rows).map fun r => r.y.val) =
      (arrange logx logy sort rows).map fun r => (r.x.val, r.y.val) := by
    rw [List.zip_map']
  have hl : (arrange logx logy sort rows).length = rows.length := by
    have := (arrange_perm logx logy sort rows).length_eq
    simpa using this
  refine ⟨⟨(arrange logx logy sort rows).map fun r => r.x.val, (arrange logx logy sort rows).map fun r => r.y.val, none, none⟩, ?_, ?_, ?_, ?_, ?_, ?_, ?_⟩
  · rcases hk with rfl | rfl <;> rfl
  · rw [hz]; exact arrange_perm _ _ _ _
  · rw [List.length_map, hl]
  · rw [List.length_map, hl]
  · rintro rfl
    rw [hz]
    simp only [arrange, List.map_map]
    refine List.map_congr_left (fun r _ => ?_)
    simp only [Function.comp, point]
    cases logx <;> cases logy <;> rfl
  · rintro rfl
    rw [Increasing, List.pairwise_map]
    have : (arrange logx logy .x rows).Pairwise (fun a b : Row => before a.x.val b.x.val = true) := List.pairwise_insertionSort _ _
    exact this.imp (fun h => (before_iff _ _).1 h)
  · rintro rfl
    rw [Increasing, List.pairwise_map]
    have : (arrange logx logy .y rows).Pairwise (fun a b : Row => before a.y.val b.y.val = true) := List.pairwise_insertionSort _ _
    exact this.imp (fun h => (before_iff _ _).1 h)

/-- The bars of some points: nothing at all if every error is missing, otherwise the lower and upper error of each point, (0, 0) where they are missing. -/
def BarsOf (es : List (Option (ℝ × ℝ))) (o : Option (List (ℝ × ℝ))) : Prop :=
  (o = none ↔ ∀ e ∈ es, e = none) ∧
  ∀ l, o = some l → l.length = es.length ∧ ∀ (i : Nat), (∀ u lo, es[i]? = some (some (u, lo)) → l[i]? = some (lo, u)) ∧ (es[i]? = some none → l[i]? = some (0, 0))

/-- C160.  Error bars without logarithms reach from the value minus the lower error to the value plus the upper one (nothing where an error is missing), for every
object at its own point, also after sorting; there are none if all errors are missing. -/
theorem errorbars_exact (sort : SortBy) (rows : List Row) :
    ∃ d rs, plot2d .errorbar false false sort rows = .ok d ∧ List.Perm rs rows ∧ (sort = .no → rs = rows) ∧ (sort = .x → Increasing d.xs) ∧ (sort = .y → Increasing d.ys) ∧
      d.xs = rs.map (fun r => r.x.val) ∧ d.ys = rs.map (fun r => r.y.val) ∧
      BarsOf (rs.map fun r => r.x.err) d.xerr ∧ BarsOf (rs.map fun r => r.y.err) d.yerr := by
  have hb : ∀ es : List (Option (ℝ × ℝ)), BarsOf es (bars es) := by
    intro es
    constructor
    · rw [bars]
      by_cases h : es.all (fun e => e.isNone) = true
      · rw [if_pos h]
        simpa using h
      · rw [if_neg h]
        simpa using h
    · intro l hl
      rw [bars] at hl
      split at hl
      · simp at hl
      · simp only [Option.some.injEq] at hl
        rw [← hl]
        refine ⟨by simp, fun i => ⟨fun u lo hi => ?_, fun hi => ?_⟩⟩
        · simp [hi]
        · simp [hi]
  have hid : (rows.map fun r => (⟨if false = true then logCell r.x else r.x, if false = true then logCell r.y else r.y⟩ : Row)) = rows := by
    simp
  obtain ⟨d0, h0, -, -, -, -, hx, hy⟩ := points_exact .plot (.inl rfl) false false sort rows
  have e0 : d0 = ⟨(arrange false false sort rows).map fun r => r.x.val, (arrange false false sort rows).map fun r => r.y.val, none, none⟩ := by
    simpa [plot2d] using h0.symm
  rw [e0] at hx hy
  refine ⟨_, arrange false false sort rows, rfl, ?_, ?_, hx, hy, rfl, rfl, hb _, hb _⟩
  · cases sort with
    | no => simp only [arrange, hid]; exact List.Perm.refl _
    | x => simp only [arrange, hid]; exact List.perm_insertionSort _ _
    | y => simp only [arrange, hid]; exact List.perm_insertionSort _ _
  · rintro rfl
    simp only [arrange, hid]

/-- C160.  Error bars on logarithmic axes, histograms and unknown kinds of plot always fail. -/
theorem plots_that_fail (logx logy : Bool) (sort : SortBy) (rows : List Row) :
    (logx = true ∨ logy = true → plot2d .errorbar logx logy sort rows = .error .attribute) ∧ plot2d .hist logx logy sort rows = .error .name ∧
    plot2d .other logx logy sort rows = .error .value := by
  refine ⟨fun h => ?_, rfl, rfl⟩
  rcases h with rfl | rfl <;> simp [plot2d]

/-- C160.  A graph is made only of a node that has no descendants, and then consists of that node. -/
theorem graph_single {I : Type} (l : List (I × Option (I × I))) :
    ((∃ g, graph l = .ok g) ↔ l.length = 1) ∧ ∀ p : I × Option (I × I), graph [p] = .ok [p.1] := by
  refine ⟨?_, fun p => rfl⟩
  match l with
  | [] => simp [graph]
  | [p] => simp [graph]
  | _ :: _ :: _ => simp [graph]

/-- A node with the attributes `logx` and `clf`. -/
def sample : Node Bool := ⟨fun k => if k = "logx" ∨ k = "clf" then some false else none, fun k => decide (k = "idstr")⟩

example : (∀ p ∈ [("logx", true)], (sample.attrs p.1).isSome = true) ∧ ∀ p ∈ [("logx", true)], sample.readOnly p.1 = false := by
  simp [sample]

end Verif.PlotAction
