import Verif.ConfigInterp

/-! # Interpolation: theorems (C153; astropysics/external/configobj.py 299-460, 540-580) -/

namespace Verif.ConfigInterp

/-! ## Specification -/

/-- At the beginning of the text `u` stands a reference (or an escaped `$`), and `rest` follows it.  Default engine: `%(key)s`.
Template engine: `$$`, `${key}`, or `$name` with the longest possible name. -/
def RefAt : Engine → Text → Tok → Text → Prop
  | .percent, u, tok, rest => ∃ k, ')' ∉ k ∧ tok = .ref k ∧ u = "%(".toList ++ k ++ ")s".toList ++ rest
  | .dollar, u, tok, rest => (tok = .text "$".toList ∧ u = "$$".toList ++ rest) ∨
      (∃ k, '}' ∉ k ∧ tok = .ref k ∧ u = "${".toList ++ k ++ "}".toList ++ rest) ∨
      (∃ c k, nameStart c = true ∧ (∀ x ∈ k, nameChar x = true) ∧ (∀ x ∈ rest.head?, nameChar x = false) ∧
        tok = .ref (c :: k) ∧ u = '$' :: c :: (k ++ rest))

/-- `Subst e F u r`: reading `u` from left to right and replacing every reference to `k` by some text `F` allows for it gives `r`. -/
inductive Subst (e : Engine) (F : Text → Text → Prop) : Text → Text → Prop
  | nil : Subst e F [] []
  | char {c u r} : (∀ tok rest, ¬ RefAt e (c :: u) tok rest) → Subst e F u r → Subst e F (c :: u) (c :: r)
  | final {u t rest r} : RefAt e u (.text t) rest → Subst e F rest r → Subst e F u (t ++ r)
  | ref {u k rest r r'} : RefAt e u (.ref k) rest → F k r → Subst e F rest r' → Subst e F u (r ++ r')

/-- `Means e look u r`: `r` is the text `u` with every reference replaced by the meaning of what `look` finds for it. -/
inductive Means (e : Engine) (look : Text → Option Text) : Text → Text → Prop
  | nil : Means e look [] []
  | char {c u r} : (∀ tok rest, ¬ RefAt e (c :: u) tok rest) → Means e look u r → Means e look (c :: u) (c :: r)
  | final {u t rest r} : RefAt e u (.text t) rest → Means e look rest r → Means e look u (t ++ r)
  | ref {u k rest v r r'} : RefAt e u (.ref k) rest → look k = some v → Means e look v r → Means e look rest r' →
      Means e look u (r ++ r')

/-- A text that refers to a key. -/
inductive Refers (e : Engine) : Text → Text → Prop
  | here {u k rest} : RefAt e u (.ref k) rest → Refers e u k
  | char {c u k} : (∀ tok rest, ¬ RefAt e (c :: u) tok rest) → Refers e u k → Refers e (c :: u) k
  | skip {u tok rest k} : RefAt e u tok rest → Refers e rest k → Refers e u k

/-- The values a key can take, in the order in which they are tried: the section, its `DEFAULT` section, its parent, and so on. -/
def candidates : List Level → Text → List (Option Val)
  | [], _ => []
  | l :: up, k => assoc l.opts k :: (match assoc l.opts "DEFAULT".toList with | some (.sect o) => assoc o k | _ => Option.none) :: candidates up k

/-- The first of them that is neither missing, nor `None`, nor a section, if it is a string. -/
def lookup (chain : List Level) (k : Text) : Option Text :=
  match (candidates chain k).findSome? usable with
  | some (.str t) => some t
  | _ => Option.none

/-- No section of the chain has a `DEFAULT` entry that is not a section. -/
def Healthy (chain : List Level) : Prop :=
  ∀ l ∈ chain, ∀ v, assoc l.opts "DEFAULT".toList = some v → ∃ o, v = .sect o

/-! ## The matches -/

theorem dropWhile_split (p : Char → Bool) (l : Text) : l = l.takeWhile p ++ l.dropWhile p := (List.takeWhile_append_dropWhile).symm

theorem takeWhile_app {p : Char → Bool} : ∀ {k : Text} {c : Char} {r : Text}, (∀ x ∈ k, p x = true) → p c = false →
    (k ++ c :: r).takeWhile p = k ∧ (k ++ c :: r).dropWhile p = c :: r
  | [], c, r, _, hc => by simp [hc]
  | x :: k, c, r, hk, hc => by
    have hx := hk x (by simp)
    have := takeWhile_app (k := k) (c := c) (r := r) (fun y hy => hk y (by simp [hy])) hc
    simp [hx, this.1, this.2]

theorem takeWhile_all {p : Char → Bool} : ∀ {k r : Text}, (∀ x ∈ k, p x = true) → (∀ x ∈ r.head?, p x = false) →
    (k ++ r).takeWhile p = k ∧ (k ++ r).dropWhile p = r
  | k, [], hk, _ => by
    induction k with
    | nil => simp
    | cons x k ih =>
      have hx := hk x (by simp)
      have := ih (fun y hy => hk y (by simp [hy]))
      simp only [List.append_nil] at this ⊢
      simp [hx, this.1, this.2]
  | k, c :: r, hk, hr => takeWhile_app hk (hr c (by simp))

theorem mem_takeWhile {p : Char → Bool} : ∀ {l : Text} {x : Char}, x ∈ l.takeWhile p → p x = true
  | y :: l, x, h => by
    by_cases hy : p y
    · rw [List.takeWhile_cons_of_pos hy] at h
      rcases List.mem_cons.1 h with rfl | h
      · exact hy
      · exact mem_takeWhile h
    · rw [List.takeWhile_cons_of_neg hy] at h
      simp at h

theorem head_dropWhile {p : Char → Bool} : ∀ {l : Text} {x : Char}, (l.dropWhile p).head? = some x → p x = false
  | y :: l, x, h => by
    by_cases hy : p y
    · rw [List.dropWhile_cons_of_pos hy] at h
      exact head_dropWhile h
    · rw [List.dropWhile_cons_of_neg hy] at h
      simp at h
      subst h
      simpa using hy

theorem match_percent (u : Text) (tok : Tok) (rest : Text) : matchPercent u = some (tok, rest) ↔ RefAt .percent u tok rest := by
  constructor
  · intro h
    unfold matchPercent at h
    split at h
    · rename_i u
      split at h
      · rename_i r hd
        simp only [Option.some.injEq, Prod.mk.injEq] at h
        obtain ⟨rfl, rfl⟩ := h
        refine ⟨_, fun hm => ?_, rfl, ?_⟩
        · have := mem_takeWhile hm
          simp at this
        · show '%' :: '(' :: u = _
          conv => lhs; rw [dropWhile_split (fun c => c != ')') u, hd]
          simp
      · simp at h
    · simp at h
  · rintro ⟨k, hk, rfl, rfl⟩
    have := takeWhile_app (p := fun c => c != ')') (k := k) (c := ')') (r := 's' :: rest) (fun x hx => by
      simp only [bne_iff_ne, ne_eq]; rintro rfl; exact hk hx) (by simp)
    show matchPercent ('%' :: '(' :: (k ++ [')', 's'] ++ rest)) = _
    rw [List.append_assoc]
    simp only [matchPercent, List.cons_append, List.nil_append, this.1, this.2]

theorem match_dollar (u : Text) (tok : Tok) (rest : Text) : matchDollar u = some (tok, rest) ↔ RefAt .dollar u tok rest := by
  constructor
  · intro h
    unfold matchDollar at h
    split at h
    · simp only [Option.some.injEq, Prod.mk.injEq] at h
      obtain ⟨rfl, rfl⟩ := h
      exact .inl ⟨rfl, rfl⟩
    · rename_i u
      split at h
      · rename_i r hd
        simp only [Option.some.injEq, Prod.mk.injEq] at h
        obtain ⟨rfl, rfl⟩ := h
        refine .inr (.inl ⟨_, fun hm => ?_, rfl, ?_⟩)
        · have := mem_takeWhile hm
          simp at this
        · show '$' :: '{' :: u = _
          conv => lhs; rw [dropWhile_split (fun c => c != '}') u, hd]
          simp
      · simp at h
    · rename_i c u _ _
      split at h
      · rename_i hc
        simp only [Option.some.injEq, Prod.mk.injEq] at h
        obtain ⟨rfl, rfl⟩ := h
        refine .inr (.inr ⟨c, _, hc, fun x hx => mem_takeWhile hx, fun x hx => head_dropWhile hx, rfl, ?_⟩)
        rw [← dropWhile_split]
      · simp at h
    · simp at h
  · rintro (⟨rfl, rfl⟩ | ⟨k, hk, rfl, rfl⟩ | ⟨c, k, hc, hk, hr, rfl, rfl⟩)
    · rfl
    · have := takeWhile_app (p := fun c => c != '}') (k := k) (c := '}') (r := rest) (fun x hx => by
        simp only [bne_iff_ne, ne_eq]; rintro rfl; exact hk hx) (by simp)
      show matchDollar ('$' :: '{' :: (k ++ ['}'] ++ rest)) = _
      rw [List.append_assoc]
      simp only [matchDollar, List.cons_append, List.nil_append, this.1, this.2]
    · have h1 : c ≠ '$' := by rintro rfl; revert hc; decide
      have h2 : c ≠ '{' := by rintro rfl; revert hc; decide
      have := takeWhile_all hk hr
      unfold matchDollar
      split
      · rename_i heq; simp at heq; exact absurd heq.1 h1
      · rename_i heq; simp at heq; exact absurd heq.1 h2
      · rename_i heq
        simp only [List.cons.injEq, true_and] at heq
        obtain ⟨rfl, rfl⟩ := heq
        rw [if_pos hc, this.1, this.2]
      · rename_i h
        exact (h _ _ rfl).elim

theorem match_iff (e : Engine) (u : Text) (tok : Tok) (rest : Text) : matchAt e u = some (tok, rest) ↔ RefAt e u tok rest := by
  cases e
  · exact match_percent u tok rest
  · exact match_dollar u tok rest

theorem match_none (e : Engine) (u : Text) : matchAt e u = none ↔ ∀ tok rest, ¬ RefAt e u tok rest := by
  constructor
  · intro h tok rest hr
    rw [← match_iff, h] at hr
    simp at hr
  · intro h
    cases hm : matchAt e u with
    | none => rfl
    | some p => exact absurd ((match_iff e u p.1 p.2).1 hm) (h _ _)

theorem refAt_unique {e : Engine} {u : Text} {t t' : Tok} {r r' : Text} (h : RefAt e u t r) (h' : RefAt e u t' r') : t = t' ∧ r = r' := by
  rw [← match_iff] at h h'
  rw [h] at h'
  simpa using h'

theorem refAt_shorter {e : Engine} {u : Text} {t : Tok} {r : Text} (h : RefAt e u t r) : r.length < u.length := by
  cases e
  · obtain ⟨k, _, _, rfl⟩ := h
    simp; omega
  · rcases h with ⟨_, rfl⟩ | ⟨k, _, _, rfl⟩ | ⟨c, k, _, _, _, _, rfl⟩ <;> simp <;> omega

/-! ## The tokens -/

theorem scan_fuel (e : Engine) : ∀ (n m : Nat) (u : Text), u.length ≤ n → u.length ≤ m → scan e n u = scan e m u
  | 0, 0, _, _, _ => rfl
  | 0, m + 1, u, h, _ => by
    have : u = [] := List.length_eq_zero_iff.1 (by omega)
    subst this; rfl
  | n + 1, 0, u, _, h => by
    have : u = [] := List.length_eq_zero_iff.1 (by omega)
    subst this; rfl
  | n + 1, m + 1, [], _, _ => rfl
  | n + 1, m + 1, c :: u, h, h' => by
    simp only [List.length_cons] at h h'
    rw [scan, scan]
    cases hm : matchAt e (c :: u) with
    | none =>
      simp only [scan_fuel e n m u (by omega) (by omega)]
    | some p =>
      have := refAt_shorter ((match_iff e (c :: u) p.1 p.2).1 hm)
      simp only [List.length_cons] at this
      simp only [scan_fuel e n m p.2 (by omega) (by omega)]

theorem tokens_char {e : Engine} {c : Char} {u : Text} (h : ∀ tok rest, ¬ RefAt e (c :: u) tok rest) :
    tokens e (c :: u) = .text [c] :: tokens e u := by
  have := (match_none e (c :: u)).2 h
  simp only [tokens, List.length_cons, scan, this]

theorem tokens_ref {e : Engine} {u : Text} {t : Tok} {r : Text} (h : RefAt e u t r) : tokens e u = t :: tokens e r := by
  cases u with
  | nil => exact absurd (refAt_shorter h) (by simp)
  | cons c u =>
    have hl := refAt_shorter h
    simp only [List.length_cons] at hl
    have := (match_iff e (c :: u) t r).2 h
    simp only [tokens, List.length_cons, scan, this]
    rw [scan_fuel e u.length r.length r (by omega) (Nat.le_refl _)]

/-- Induction along the matches of a text. -/
theorem scan_induction {e : Engine} {P : Text → Prop} (h0 : P []) (hc : ∀ c u, (∀ tok rest, ¬ RefAt e (c :: u) tok rest) → P u → P (c :: u))
    (hr : ∀ u tok rest, RefAt e u tok rest → P rest → P u) : ∀ u, P u := by
  have : ∀ (n : Nat) (u : Text), u.length ≤ n → P u := by
    intro n
    induction n with
    | zero => intro u h; rw [List.length_eq_zero_iff.1 (by omega : u.length = 0)]; exact h0
    | succ n ih =>
      intro u h
      cases u with
      | nil => exact h0
      | cons c u =>
        simp only [List.length_cons] at h
        cases hm : matchAt e (c :: u) with
        | none => exact hc c u ((match_none e _).1 hm) (ih u (by omega))
        | some p =>
          have hp := (match_iff e (c :: u) p.1 p.2).1 hm
          have := refAt_shorter hp
          simp only [List.length_cons] at this
          exact hr _ _ _ hp (ih _ (by omega))
  exact fun u => this u.length u (Nat.le_refl _)

theorem expand_subst {e : Engine} {f : Text → Except Err Text} : ∀ (u r : Text),
    expandWith f (tokens e u) = .ok r ↔ Subst e (fun k r => f k = .ok r) u r := by
  intro u
  induction u using scan_induction (e := e) with
  | h0 =>
    intro r
    constructor
    · intro h
      simp only [tokens, List.length_nil, scan, expandWith, Except.ok.injEq] at h
      subst h; exact .nil
    · intro h
      generalize hu : ([] : Text) = u at h
      cases h with
      | nil => rfl
      | char => simp at hu
      | final hr => subst hu; exact absurd (refAt_shorter hr) (by simp)
      | ref hr => subst hu; exact absurd (refAt_shorter hr) (by simp)
  | hc c u hn ih =>
    intro r
    rw [tokens_char hn, expandWith]
    constructor
    · intro h
      cases hx : expandWith f (tokens e u) with
      | error x => rw [hx] at h; simp at h
      | ok r1 =>
        rw [hx] at h
        simp only [Except.ok.injEq, List.cons_append, List.nil_append] at h
        subst h
        exact .char hn ((ih r1).1 hx)
    · intro h
      generalize hu : c :: u = w at h
      cases h with
      | nil => simp at hu
      | char _ h =>
        simp only [List.cons.injEq] at hu
        obtain ⟨rfl, rfl⟩ := hu
        rw [(ih _).2 h]; rfl
      | final hr => subst hu; exact absurd hr (hn _ _)
      | ref hr => subst hu; exact absurd hr (hn _ _)
  | hr u tok rest hr ih =>
    intro r
    rw [tokens_ref hr]
    cases tok with
    | text t =>
      rw [expandWith]
      constructor
      · intro h
        cases hx : expandWith f (tokens e rest) with
        | error x => rw [hx] at h; simp at h
        | ok r1 =>
          rw [hx] at h
          simp only [Except.ok.injEq] at h
          subst h
          exact .final hr ((ih r1).1 hx)
      · intro h
        cases h with
        | nil => exact absurd (refAt_shorter hr) (by simp)
        | char hn => exact absurd hr (hn _ _)
        | final hr' h =>
          obtain ⟨h1, rfl⟩ := refAt_unique hr hr'
          simp only [Tok.text.injEq] at h1
          subst h1
          rw [(ih _).2 h]
        | ref hr' => exact absurd (refAt_unique hr hr').1 (by simp)
    | ref k =>
      rw [expandWith]
      constructor
      · intro h
        cases hf : f k with
        | error x => rw [hf] at h; simp at h
        | ok r0 =>
          rw [hf] at h
          cases hx : expandWith f (tokens e rest) with
          | error x => simp [hx] at h
          | ok r1 =>
            simp only [hx, Except.ok.injEq] at h
            subst h
            exact .ref hr hf ((ih r1).1 hx)
      · intro h
        cases h with
        | nil => exact absurd (refAt_shorter hr) (by simp)
        | char hn => exact absurd hr (hn _ _)
        | final hr' => exact absurd (refAt_unique hr hr').1 (by simp)
        | ref hr' hk h =>
          obtain ⟨h1, rfl⟩ := refAt_unique hr hr'
          simp only [Tok.ref.injEq] at h1
          subst h1
          simp only [hk, (ih _).2 h]

theorem expand_error {e : Engine} {f : Text → Except Err Text} {x : Err} : ∀ (u : Text),
    expandWith f (tokens e u) = .error x → ∃ k, Refers e u k ∧ f k = .error x := by
  intro u
  induction u using scan_induction (e := e) with
  | h0 => intro h; simp [tokens, scan, expandWith] at h
  | hc c u hn ih =>
    intro h
    rw [tokens_char hn, expandWith] at h
    cases hx : expandWith f (tokens e u) with
    | error y =>
      rw [hx] at h
      simp only [Except.error.injEq] at h
      subst h
      obtain ⟨k, hk, hf⟩ := ih hx
      exact ⟨k, .char hn hk, hf⟩
    | ok r => rw [hx] at h; simp at h
  | hr u tok rest hr ih =>
    intro h
    rw [tokens_ref hr] at h
    cases tok with
    | text t =>
      rw [expandWith] at h
      cases hx : expandWith f (tokens e rest) with
      | error y =>
        rw [hx] at h
        simp only [Except.error.injEq] at h
        subst h
        obtain ⟨k, hk, hf⟩ := ih hx
        exact ⟨k, .skip hr hk, hf⟩
      | ok r => rw [hx] at h; simp at h
    | ref k =>
      rw [expandWith] at h
      cases hf : f k with
      | error y =>
        rw [hf] at h
        simp only [Except.error.injEq] at h
        subst h
        exact ⟨k, .here hr, hf⟩
      | ok r0 =>
        rw [hf] at h
        cases hx : expandWith f (tokens e rest) with
        | error y =>
          simp only [hx, Except.error.injEq] at h
          subst h
          obtain ⟨k', hk', hf'⟩ := ih hx
          exact ⟨k', .skip hr hk', hf'⟩
        | ok r => simp [hx] at h

/-! ## The lookup -/

theorem candidates_cons (l : Level) (up : List Level) (k : Text) (o : Option (List (Text × Val)))
    (ho : assoc l.opts "DEFAULT".toList = o.map Val.sect) :
    candidates (l :: up) k = assoc l.opts k :: (o.bind fun o => assoc o k) :: candidates up k := by
  rw [candidates, ho]
  cases o <;> rfl

theorem healthy_head {l : Level} {up : List Level} (h : Healthy (l :: up)) :
    ∃ o : Option (List (Text × Val)), assoc l.opts "DEFAULT".toList = o.map Val.sect := by
  cases hd : assoc l.opts "DEFAULT".toList with
  | none => exact ⟨none, rfl⟩
  | some v =>
    obtain ⟨o, rfl⟩ := h l (by simp) v hd
    exact ⟨some o, rfl⟩

theorem default_eq {l : Level} {o : Option (List (Text × Val))} (ho : assoc l.opts "DEFAULT".toList = o.map Val.sect) (k : Text) :
    default l k = .ok (o.bind fun o => assoc o k) := by
  rw [default, ho]
  cases o <;> rfl

/-- C153.  A reference is looked up in the section, then in its `DEFAULT` section, then in its parent, and so on up to the main
section: the first value that is neither `None` nor a section is the one that is used.  When there is none, the option is
missing. -/
theorem fetch_exact {chain : List Level} (h : Healthy chain) (hne : chain ≠ []) (k : Text) :
    (∀ v, (candidates chain k).findSome? usable = some v → ∃ s, fetch chain k = .ok (v, s)) ∧
    ((candidates chain k).findSome? usable = none → fetch chain k = .error (.missing k) ∨ ∃ o s, fetch chain k = .ok (.sect o, s)) := by
  induction chain with
  | nil => exact absurd rfl hne
  | cons l up ih =>
    obtain ⟨o, ho⟩ := healthy_head h
    rw [candidates_cons l up k o ho]
    simp only [List.findSome?_cons]
    rw [fetch]
    cases hu : usable (assoc l.opts k) with
    | some v => simp
    | none =>
      simp only [default_eq ho]
      cases hu2 : usable (o.bind fun o => assoc o k) with
      | some v => simp
      | none =>
        cases up with
        | cons l' up =>
          exact ih (fun l hl => h l (by simp [hl])) (by simp)
        | nil =>
          simp only [candidates, List.findSome?_nil]
          refine ⟨by simp, fun _ => ?_⟩
          cases hb : (o.bind fun o => assoc o k) with
          | none => exact .inl rfl
          | some v =>
            rw [hb] at hu2
            cases v with
            | sect o' => exact .inr ⟨o', _, rfl⟩
            | none => exact .inl rfl
            | str t => simp [usable] at hu2
            | list t => simp [usable] at hu2
            | other => simp [usable] at hu2

theorem usable_not_sect {x : Option Val} {o : List (Text × Val)} : usable x ≠ some (.sect o) := by
  cases x with
  | none => simp [usable]
  | some v => cases v <;> simp [usable]

theorem findSome_not_sect {l : List (Option Val)} {o : List (Text × Val)} : l.findSome? usable ≠ some (.sect o) := by
  induction l with
  | nil => simp
  | cons a l ih =>
    rw [List.findSome?_cons]
    cases hu : usable a with
    | none => exact ih
    | some v => intro h; simp only [Option.some.injEq] at h; subst h; exact usable_not_sect hu

theorem fetch_str {chain : List Level} (h : Healthy chain) (hne : chain ≠ []) (k t : Text) :
    (∃ s, fetch chain k = .ok (.str t, s)) ↔ lookup chain k = some t := by
  obtain ⟨h1, h2⟩ := fetch_exact h hne k
  rw [lookup]
  cases hc : (candidates chain k).findSome? usable with
  | none =>
    rcases h2 hc with h3 | ⟨o, s, h3⟩
    · simp [h3]
    · simp [h3]
  | some v =>
    obtain ⟨s, hs⟩ := h1 v hc
    cases v <;> simp [hs]

/-! ## Heights -/

/-- The meaning of a text, with references nested at most `n` deep. -/
def MN (e : Engine) (look : Text → Option Text) : Nat → Text → Text → Prop
  | 0 => Subst e fun _ _ => False
  | n + 1 => Subst e fun k r => ∃ v, look k = some v ∧ MN e look n v r

theorem subst_mono {e : Engine} {F G : Text → Text → Prop} (h : ∀ k r, F k r → G k r) {u r : Text} (hs : Subst e F u r) : Subst e G u r := by
  induction hs with
  | nil => exact .nil
  | char hn _ ih => exact .char hn ih
  | final hr _ ih => exact .final hr ih
  | ref hr hk _ ih => exact .ref hr (h _ _ hk) ih

theorem mn_succ {e : Engine} {look : Text → Option Text} : ∀ {n : Nat} {u r : Text}, MN e look n u r → MN e look (n + 1) u r
  | 0, _, _, h => subst_mono (fun _ _ hf => hf.elim) h
  | n + 1, _, _, h => subst_mono (fun _ _ ⟨v, hv, hm⟩ => ⟨v, hv, mn_succ hm⟩) h

theorem mn_mono {e : Engine} {look : Text → Option Text} {n m : Nat} (hnm : n ≤ m) {u r : Text} (h : MN e look n u r) : MN e look m u r := by
  induction hnm with
  | refl => exact h
  | step _ ih => exact mn_succ ih

theorem subst_means {e : Engine} {look : Text → Option Text} {F : Text → Text → Prop}
    (hF : ∀ k r, F k r → ∃ v, look k = some v ∧ Means e look v r) {u r : Text} (h : Subst e F u r) : Means e look u r := by
  induction h with
  | nil => exact .nil
  | char hn _ ih => exact .char hn ih
  | final hr _ ih => exact .final hr ih
  | ref hr hk _ ih =>
    obtain ⟨v, hv, hm⟩ := hF _ _ hk
    exact .ref hr hv hm ih

theorem mn_means {e : Engine} {look : Text → Option Text} : ∀ {n : Nat} {u r : Text}, MN e look n u r → Means e look u r
  | 0, _, _, h => subst_means (fun _ _ hf => hf.elim) h
  | _ + 1, _, _, h => subst_means (fun _ _ ⟨v, hv, hm⟩ => ⟨v, hv, mn_means hm⟩) h

theorem mn_char {e : Engine} {look : Text → Option Text} {n : Nat} {c : Char} {u r : Text} (hn : ∀ tok rest, ¬ RefAt e (c :: u) tok rest)
    (h : MN e look n u r) : MN e look n (c :: u) (c :: r) := by
  cases n <;> exact .char hn h

theorem mn_final {e : Engine} {look : Text → Option Text} {n : Nat} {u t rest r : Text} (hr : RefAt e u (.text t) rest)
    (h : MN e look n rest r) : MN e look n u (t ++ r) := by
  cases n <;> exact .final hr h

theorem means_mn {e : Engine} {look : Text → Option Text} {u r : Text} (h : Means e look u r) : ∃ n, MN e look n u r := by
  induction h with
  | nil => exact ⟨0, .nil⟩
  | char hn _ ih =>
    obtain ⟨n, hm⟩ := ih
    exact ⟨n, mn_char hn hm⟩
  | final hr _ ih =>
    obtain ⟨n, hm⟩ := ih
    exact ⟨n, mn_final hr hm⟩
  | @ref u k rest v r r' hr hv _ _ ih1 ih2 =>
    obtain ⟨n, h1⟩ := ih1
    obtain ⟨m, h2⟩ := ih2
    refine ⟨max n m + 1, ?_⟩
    refine .ref hr ⟨v, hv, mn_mono (Nat.le_max_left n m) h1⟩ ?_
    have := mn_mono (Nat.le_trans (Nat.le_max_right n m) (Nat.le_succ _)) h2
    exact this

/-- The least height at which a text has a meaning. -/
theorem least_height {e : Engine} {look : Text → Option Text} {v : Text} : ∀ {n : Nat} {r : Text}, MN e look n v r →
    ∃ m, m ≤ n ∧ MN e look m v r ∧ ∀ m', m' < m → ∀ r', ¬ MN e look m' v r' := by
  have uniq : ∀ (n : Nat) (u r r' : Text), MN e look n u r → MN e look n u r' → r = r' := by
    have step : ∀ (F : Text → Text → Prop), (∀ k r r', F k r → F k r' → r = r') → ∀ u r r', Subst e F u r → Subst e F u r' → r = r' := by
      intro F hF u r r' h
      induction h generalizing r' with
      | nil =>
        intro h'
        generalize hu : ([] : Text) = u at h'
        cases h' with
        | nil => rfl
        | char => simp at hu
        | final hr => subst hu; exact absurd (refAt_shorter hr) (by simp)
        | ref hr => subst hu; exact absurd (refAt_shorter hr) (by simp)
      | @char c u r hn _ ih =>
        intro h'
        generalize hu : c :: u = w at h'
        cases h' with
        | nil => simp at hu
        | char _ h =>
          simp only [List.cons.injEq] at hu
          obtain ⟨rfl, rfl⟩ := hu
          rw [ih _ h]
        | final hr => subst hu; exact absurd hr (hn _ _)
        | ref hr => subst hu; exact absurd hr (hn _ _)
      | final hr _ ih =>
        intro h'
        cases h' with
        | nil => exact absurd (refAt_shorter hr) (by simp)
        | char hn => exact absurd hr (hn _ _)
        | final hr' h =>
          obtain ⟨h1, rfl⟩ := refAt_unique hr hr'
          simp only [Tok.text.injEq] at h1
          rw [h1, ih _ h]
        | ref hr' => exact absurd (refAt_unique hr hr').1 (by simp)
      | ref hr hk _ ih =>
        intro h'
        cases h' with
        | nil => exact absurd (refAt_shorter hr) (by simp)
        | char hn => exact absurd hr (hn _ _)
        | final hr' => exact absurd (refAt_unique hr hr').1 (by simp)
        | ref hr' hk' h =>
          obtain ⟨h1, rfl⟩ := refAt_unique hr hr'
          simp only [Tok.ref.injEq] at h1
          subst h1
          rw [hF _ _ _ hk hk', ih _ h]
    intro n
    induction n with
    | zero => exact step _ (fun _ _ _ h => h.elim)
    | succ n ih =>
      refine step _ ?_
      rintro k r r' ⟨v, hv, h⟩ ⟨v', hv', h'⟩
      rw [hv] at hv'
      simp only [Option.some.injEq] at hv'
      subst hv'
      exact ih _ _ _ h h'
  intro n
  induction n with
  | zero => exact fun h => ⟨0, Nat.le_refl 0, h, fun m' hm' => absurd hm' (by omega)⟩
  | succ n ih =>
    intro r h
    by_cases hex : ∃ r', MN e look n v r'
    · obtain ⟨r', h'⟩ := hex
      obtain rfl := uniq (n + 1) v r r' h (mn_succ h')
      obtain ⟨m, hm, h1, h2⟩ := ih h'
      exact ⟨m, by omega, h1, h2⟩
    · refine ⟨n + 1, Nat.le_refl _, h, fun m' hm' r' h' => hex ⟨r', mn_mono (by omega) h'⟩⟩

/-! ## The trail -/

/-- The keys that are not yet on the trail. -/
def fresh (chain : List Level) (back : List (Text × Option Text)) (k : Text) : Bool :=
  match fetch chain k with
  | .ok (_, s) => decide ((k, s) ∉ back)
  | .error _ => false

/-- How many are left. -/
def left (chain : List Level) (back : List (Text × Option Text)) : Nat := ((allKeys chain).filter (fresh chain back)).length

theorem assoc_mem {V : Type} {l : List (Text × V)} {k : Text} {v : V} (h : assoc l k = some v) : k ∈ l.map Prod.fst := by
  induction l with
  | nil => simp [assoc] at h
  | cons p l ih =>
    obtain ⟨k', v'⟩ := p
    rw [assoc] at h
    by_cases hk : k' = k
    · simp [hk]
    · rw [if_neg hk] at h
      simp [ih h]

theorem fetch_mem {chain : List Level} {k : Text} {v : Val} {s : Option Text} (h : fetch chain k = .ok (v, s)) : k ∈ allKeys chain := by
  induction chain with
  | nil => simp [fetch] at h
  | cons l up ih =>
    rw [fetch] at h
    rw [allKeys]
    cases ha : assoc l.opts k with
    | some v' => simp [assoc_mem ha]
    | none =>
      rw [ha] at h
      simp only [usable] at h
      rw [default] at h
      cases hd : assoc l.opts "DEFAULT".toList with
      | none =>
        rw [hd] at h
        cases up with
        | nil => simp [usable] at h
        | cons l' up =>
          have := ih h
          simp [this]
      | some d =>
        rw [hd] at h
        cases d with
        | sect o =>
          cases hb : assoc o k with
          | some v' => simp [keysOf, List.mem_map.1 (assoc_mem hb)]
          | none =>
            simp only [hb] at h
            cases up with
            | nil => simp [usable] at h
            | cons l' up =>
              have := ih h
              simp [this]
        | _ => simp at h

theorem left_lt {chain : List Level} {back : List (Text × Option Text)} {k : Text} {v : Val} {s : Option Text}
    (hf : fetch chain k = .ok (v, s)) (hb : (k, s) ∉ back) : left chain ((k, s) :: back) < left chain back := by
  have hmem := fetch_mem hf
  have hsub : ∀ k', fresh chain ((k, s) :: back) k' = true → fresh chain back k' = true := by
    intro k' h
    unfold fresh at h ⊢
    cases hk : fetch chain k' with
    | error x => rw [hk] at h; simp at h
    | ok p =>
      rw [hk] at h
      simp only [List.mem_cons, not_or, decide_eq_true_eq] at h ⊢
      exact h.2
  have h1 : fresh chain back k = true := by unfold fresh; rw [hf]; simpa using hb
  have h2 : fresh chain ((k, s) :: back) k = false := by unfold fresh; rw [hf]; simp
  unfold left
  generalize allKeys chain = l at hmem
  have mono : ∀ l : List Text, (l.filter (fresh chain ((k, s) :: back))).length ≤ (l.filter (fresh chain back)).length := by
    intro l
    induction l with
    | nil => simp
    | cons a l ih =>
      rw [List.filter_cons, List.filter_cons]
      cases ha : fresh chain ((k, s) :: back) a with
      | true => simp [hsub a ha, ih]
      | false =>
        cases fresh chain back a
        · simpa using ih
        · simp; omega
  induction l with
  | nil => simp at hmem
  | cons a l ih =>
    rw [List.filter_cons, List.filter_cons]
    by_cases hak : a = k
    · subst hak
      simp only [h1, h2, if_true, Bool.false_eq_true, if_false, List.length_cons]
      have := mono l
      omega
    · have hm : k ∈ l := by
        rcases List.mem_cons.1 hmem with h | h
        · exact absurd h.symm hak
        · exact h
      have := ih hm
      cases ha : fresh chain ((k, s) :: back) a with
      | true => simp [hsub a ha, this]
      | false =>
        cases fresh chain back a
        · simpa using this
        · simp; omega

theorem fetch_no_fuel (chain : List Level) (k : Text) : fetch chain k ≠ .error .fuel := by
  induction chain with
  | nil => simp [fetch]
  | cons l up ih =>
    rw [fetch]
    cases usable (assoc l.opts k) with
    | some v => simp
    | none =>
      simp only [default]
      cases assoc l.opts "DEFAULT".toList with
      | none =>
        cases up with
        | nil => simp [usable]
        | cons l' up => exact ih
      | some d =>
        cases d with
        | sect o =>
          simp only
          cases usable (assoc o k) with
          | some v => simp
          | none =>
            cases up with
            | nil =>
              simp only
              split <;> simp
            | cons l' up => exact ih
        | _ => simp

theorem expandKey_total (e : Engine) (chain : List Level) : ∀ (n : Nat) (back : List (Text × Option Text)) (k : Text),
    left chain back < n → expandKey e chain n back k ≠ .error .fuel
  | 0, _, _, h => absurd h (by omega)
  | n + 1, back, k, h => by
    rw [expandKey]
    cases hf : fetch chain k with
    | error x =>
      simp only [ne_eq, Except.error.injEq]
      rintro rfl
      exact absurd hf (fetch_no_fuel chain k)
    | ok p =>
      obtain ⟨v, s⟩ := p
      simp only
      by_cases hb : (k, s) ∈ back
      · rw [if_pos hb]; simp
      · rw [if_neg hb]
        cases v with
        | str t =>
          intro hx
          obtain ⟨k', _, hk'⟩ := expand_error t hx
          exact expandKey_total e chain n _ k' (by have := left_lt hf hb; omega) hk'
        | _ => simp

theorem left_le (chain : List Level) (back : List (Text × Option Text)) : left chain back ≤ (allKeys chain).length := List.length_filter_le _ _

/-- C153.  Interpolation always ends: whatever refers to whatever, the result is a text or one of the exceptions. -/
theorem interpolation_ends (e : Engine) (chain : List Level) (key value : Text) : interpolate e chain key value ≠ .error .fuel := by
  unfold interpolate
  split
  · intro hx
    obtain ⟨k, _, hk⟩ := expand_error value hx
    exact expandKey_total e chain _ _ k (by have := left_le chain [(key, chain.head?.bind Level.name)]; omega) hk
  · simp

/-! ## What comes out -/

theorem expandKey_sound {e : Engine} {chain : List Level} (hh : Healthy chain) (hne : chain ≠ []) :
    ∀ {n : Nat} {back : List (Text × Option Text)} {k r : Text}, expandKey e chain n back k = .ok r →
      ∃ v, lookup chain k = some v ∧ Means e (lookup chain) v r
  | 0, _, _, _, h => by simp [expandKey] at h
  | n + 1, back, k, r, h => by
    rw [expandKey] at h
    cases hf : fetch chain k with
    | error x => rw [hf] at h; simp at h
    | ok p =>
      obtain ⟨v, s⟩ := p
      rw [hf] at h
      simp only at h
      by_cases hb : (k, s) ∈ back
      · rw [if_pos hb] at h; simp at h
      · rw [if_neg hb] at h
        cases v with
        | str t =>
          exact ⟨t, (fetch_str hh hne k t).1 ⟨s, hf⟩, subst_means (fun _ _ hk => expandKey_sound hh hne hk) ((expand_subst t r).1 h)⟩
        | _ => simp at h

theorem expandKey_complete {e : Engine} {chain : List Level} (hh : Healthy chain) (hne : chain ≠ []) :
    ∀ (N : Nat) {n : Nat} {back : List (Text × Option Text)} {k v r : Text}, n ≤ N →
      lookup chain k = some v → MN e (lookup chain) n v r →
      (∀ p ∈ back, ∀ v', lookup chain p.1 = some v' → ∀ r', ¬ MN e (lookup chain) n v' r') →
      ∀ fuel, left chain back < fuel → expandKey e chain fuel back k = .ok r
  | N, n, back, k, v, r, hN, hv, hm, hback, 0, hfuel => absurd hfuel (by omega)
  | N, n, back, k, v, r, hN, hv, hm, hback, fuel + 1, hfuel => by
    obtain ⟨s, hf⟩ := (fetch_str hh hne k v).2 hv
    have hb : (k, s) ∉ back := fun hmem => hback _ hmem v hv r hm
    rw [expandKey, hf]
    simp only [if_neg hb]
    rw [expand_subst]
    obtain ⟨m, hmn, hm1, hmin⟩ := least_height hm
    cases m with
    | zero => exact subst_mono (fun _ _ h => h.elim) hm1
    | succ m =>
      refine subst_mono ?_ hm1
      rintro k' r' ⟨v', hv', hm'⟩
      cases N with
      | zero => omega
      | succ N =>
        refine expandKey_complete hh hne N (n := m) (by omega) hv' hm' ?_ fuel (by have := left_lt hf hb; omega)
        intro p hp w hw rw' hmw
        rcases List.mem_cons.1 hp with rfl | hp
        · rw [hv] at hw
          simp only [Option.some.injEq] at hw
          subst hw
          exact hmin m (by omega) rw' hmw
        · exact hback p hp w hw rw' (mn_mono (by omega) hmw)

theorem refAt_cookie {e : Engine} {u rest : Text} {tok : Tok} (h : RefAt e u tok rest) : ∃ w, u = cookie e :: w := by
  cases e
  · obtain ⟨k, _, _, rfl⟩ := h
    exact ⟨_, rfl⟩
  · rcases h with ⟨_, rfl⟩ | ⟨k, _, _, rfl⟩ | ⟨c, k, _, _, _, _, rfl⟩ <;> exact ⟨_, rfl⟩

theorem means_plain {e : Engine} {look : Text → Option Text} : ∀ {u r : Text}, cookie e ∉ u → (Means e look u r ↔ u = r) := by
  intro u r hc
  constructor
  · intro h
    induction h with
    | nil => rfl
    | char _ _ ih => rw [ih (by simp at hc; exact hc.2)]
    | final hr => obtain ⟨w, rfl⟩ := refAt_cookie hr; simp at hc
    | ref hr => obtain ⟨w, rfl⟩ := refAt_cookie hr; simp at hc
  · rintro rfl
    induction u with
    | nil => exact .nil
    | cons c u ih =>
      simp only [List.mem_cons, not_or] at hc
      refine .char (fun tok rest hr => ?_) (ih hc.2)
      obtain ⟨w, hw⟩ := refAt_cookie hr
      simp only [List.cons.injEq] at hw
      exact hc.1 hw.1.symm

/-- C153.  The value read for a string is the string with every reference replaced, recursively, by the value the reference is looked
up to be; there is a result exactly when that recursion ends in strings. -/
theorem interpolate_exact {e : Engine} {chain : List Level} (hh : Healthy chain) {l : Level} {up : List Level} (hch : chain = l :: up)
    {key value : Text} (hv : assoc l.opts key = some (.str value)) (r : Text) :
    interpolate e chain key value = .ok r ↔ Means e (lookup chain) value r := by
  have hne : chain ≠ [] := by simp [hch]
  have hlk : lookup chain key = some value := by
    subst hch
    rw [lookup, candidates, List.findSome?_cons, hv]
    rfl
  unfold interpolate
  by_cases hc : cookie e ∈ value
  · rw [if_pos hc, expand_subst]
    constructor
    · exact subst_means (fun _ _ hk => expandKey_sound hh hne hk)
    · intro h
      obtain ⟨n, hm⟩ := means_mn h
      obtain ⟨m, _, hm1, hmin⟩ := least_height hm
      cases m with
      | zero => exact subst_mono (fun _ _ h => h.elim) hm1
      | succ m =>
        refine subst_mono ?_ hm1
        rintro k' r' ⟨v', hv', hm'⟩
        refine expandKey_complete hh hne m (Nat.le_refl m) hv' hm' ?_ _ (by have := left_le chain [(key, chain.head?.bind Level.name)]; omega)
        intro p hp w hw r'' hmw
        simp only [List.mem_singleton] at hp
        subst hp
        rw [hlk] at hw
        simp only [Option.some.injEq] at hw
        subst hw
        exact hmin m (by omega) r'' hmw
  · rw [if_neg hc, means_plain hc]
    simp

/-! ## Why there is none -/

/-- `Depends e chain k k'`: the value of `k` refers to `k'`, directly or through other keys. -/
inductive Depends (e : Engine) (chain : List Level) : Text → Text → Prop
  | step {k v k'} : lookup chain k = some v → Refers e v k' → Depends e chain k k'
  | trans {k k' k''} : Depends e chain k k' → Depends e chain k' k'' → Depends e chain k k''

/-- `Needs e chain u k`: the text `u` refers to `k`, directly or through other keys. -/
def Needs (e : Engine) (chain : List Level) (u k : Text) : Prop := Refers e u k ∨ ∃ k', Refers e u k' ∧ Depends e chain k' k

theorem subst_refers {e : Engine} {F : Text → Text → Prop} {u k : Text} (hk : Refers e u k) : ∀ {r : Text}, Subst e F u r → ∃ r', F k r' := by
  induction hk with
  | here hr =>
    intro r h
    cases h with
    | nil => exact absurd (refAt_shorter hr) (by simp)
    | char hn => exact absurd hr (hn _ _)
    | final hr' => exact absurd (refAt_unique hr hr').1 (by simp)
    | ref hr' hk' =>
      obtain ⟨h1, _⟩ := refAt_unique hr hr'
      simp only [Tok.ref.injEq] at h1
      subst h1
      exact ⟨_, hk'⟩
  | @char c u k hn _ ih =>
    intro r h
    generalize hu : c :: u = w at h
    cases h with
    | nil => simp at hu
    | char _ h =>
      simp only [List.cons.injEq] at hu
      obtain ⟨rfl, rfl⟩ := hu
      exact ih h
    | final hr => subst hu; exact absurd hr (hn _ _)
    | ref hr => subst hu; exact absurd hr (hn _ _)
  | skip hr _ ih =>
    intro r h
    cases h with
    | nil => exact absurd (refAt_shorter hr) (by simp)
    | char hn => exact absurd hr (hn _ _)
    | final hr' h =>
      obtain ⟨_, rfl⟩ := refAt_unique hr hr'
      exact ih h
    | ref hr' _ h =>
      obtain ⟨_, rfl⟩ := refAt_unique hr hr'
      exact ih h

theorem mn_refers {e : Engine} {look : Text → Option Text} {u k : Text} (hk : Refers e u k) : ∀ {n : Nat} {r : Text}, MN e look n u r →
    ∃ m v r', n = m + 1 ∧ look k = some v ∧ MN e look m v r'
  | 0, _, h => by obtain ⟨_, hf⟩ := subst_refers hk h; exact hf.elim
  | n + 1, _, h => by
    obtain ⟨r', v, hv, hm⟩ := subst_refers hk h
    exact ⟨n, v, r', rfl, hv, hm⟩

theorem depends_height {e : Engine} {chain : List Level} {k k' : Text} (h : Depends e chain k k') : ∀ {n : Nat} {v r : Text},
    lookup chain k = some v → MN e (lookup chain) n v r → ∃ m v' r', m < n ∧ lookup chain k' = some v' ∧ MN e (lookup chain) m v' r' := by
  induction h with
  | step hl hr =>
    intro n v r hv hm
    rw [hl] at hv
    simp only [Option.some.injEq] at hv
    subst hv
    obtain ⟨m, v', r', rfl, hv', hm'⟩ := mn_refers hr hm
    exact ⟨m, v', r', by omega, hv', hm'⟩
  | trans _ _ ih1 ih2 =>
    intro n v r hv hm
    obtain ⟨m, v', r', h1, hv', hm'⟩ := ih1 hv hm
    obtain ⟨m', v'', r'', h2, hv'', hm''⟩ := ih2 hv' hm'
    exact ⟨m', v'', r'', by omega, hv'', hm''⟩

/-- C153.  A text that needs a key which depends on itself has no meaning. -/
theorem cycle_no_meaning {e : Engine} {chain : List Level} {u k : Text} (hn : Needs e chain u k) (hc : Depends e chain k k) (r : Text) :
    ¬ Means e (lookup chain) u r := by
  intro h
  obtain ⟨n, hm⟩ := means_mn h
  have key : ∃ m v r', lookup chain k = some v ∧ MN e (lookup chain) m v r' := by
    rcases hn with hk | ⟨k', hk', hd⟩
    · obtain ⟨m, v, r', _, hv, hm'⟩ := mn_refers hk hm
      exact ⟨m, v, r', hv, hm'⟩
    · obtain ⟨m, v, r', _, hv, hm'⟩ := mn_refers hk' hm
      obtain ⟨m', v', r'', _, hv', hm''⟩ := depends_height hd hv hm'
      exact ⟨m', v', r'', hv', hm''⟩
  obtain ⟨m, v, r', hv, hm'⟩ := key
  have : ∀ m v r', lookup chain k = some v → ¬ MN e (lookup chain) m v r' := by
    intro m
    induction m using Nat.strongRecOn with
    | ind m ih =>
      intro v r' hv hm'
      obtain ⟨m', v', r'', hlt, hv', hm''⟩ := depends_height hc hv hm'
      exact ih m' hlt v' r'' hv' hm''
  exact this m v r' hv hm'

theorem expandKey_error {e : Engine} {chain : List Level} (hh : Healthy chain) (hne : chain ≠ []) : ∀ {n : Nat} {back : List (Text × Option Text)} {k : Text} {x : Err},
    (∀ p ∈ back, Depends e chain p.1 k) → expandKey e chain n back k = .error x → x ≠ .fuel →
      (∃ k', (k' = k ∨ Depends e chain k k') ∧ x = .missing k' ∧ (candidates chain k').findSome? usable = none) ∨
      (∃ k', (k' = k ∨ Depends e chain k k') ∧ x = .loop k' ∧ Depends e chain k' k') ∨
      (∃ k', (k' = k ∨ Depends e chain k k') ∧ x = .type ∧ lookup chain k' = none)
  | 0, _, _, x, _, h, hx => by
    simp only [expandKey, Except.error.injEq] at h
    exact absurd h.symm hx
  | n + 1, back, k, x, hback, h, hx => by
    rw [expandKey] at h
    cases hf : fetch chain k with
    | error y =>
      rw [hf] at h
      simp only [Except.error.injEq] at h
      subst h
      obtain ⟨h1, h2⟩ := fetch_exact hh hne k
      cases hc : (candidates chain k).findSome? usable with
      | some v =>
        obtain ⟨s, hs⟩ := h1 v hc
        rw [hs] at hf
        simp at hf
      | none =>
        rcases h2 hc with h3 | ⟨o, s, h3⟩
        · rw [h3] at hf
          simp only [Except.error.injEq] at hf
          exact .inl ⟨k, .inl rfl, hf.symm, hc⟩
        · rw [h3] at hf
          simp at hf
    | ok p =>
      obtain ⟨v, s⟩ := p
      rw [hf] at h
      simp only at h
      by_cases hb : (k, s) ∈ back
      · rw [if_pos hb] at h
        simp only [Except.error.injEq] at h
        exact .inr (.inl ⟨k, .inl rfl, h.symm, hback _ hb⟩)
      · rw [if_neg hb] at h
        cases v with
        | str t =>
          have hl := (fetch_str hh hne k t).1 ⟨s, hf⟩
          obtain ⟨k', hk', hx'⟩ := expand_error t h
          have hd : Depends e chain k k' := .step hl hk'
          have := expandKey_error hh hne (n := n) (back := (k, s) :: back) (k := k') (by
            intro p hp
            rcases List.mem_cons.1 hp with rfl | hp
            · exact hd
            · exact (hback p hp).trans hd) hx' hx
          have up : ∀ k'', (k'' = k' ∨ Depends e chain k' k'') → (k'' = k ∨ Depends e chain k k'') := by
            rintro k'' (rfl | h'')
            · exact .inr hd
            · exact .inr (hd.trans h'')
          rcases this with ⟨k'', h1, h2⟩ | ⟨k'', h1, h2⟩ | ⟨k'', h1, h2⟩
          · exact .inl ⟨k'', up _ h1, h2⟩
          · exact .inr (.inl ⟨k'', up _ h1, h2⟩)
          · exact .inr (.inr ⟨k'', up _ h1, h2⟩)
        | _ =>
          simp only [Except.error.injEq] at h
          refine .inr (.inr ⟨k, .inl rfl, h.symm, ?_⟩)
          cases hl : lookup chain k with
          | none => rfl
          | some t =>
            obtain ⟨s', hs'⟩ := (fetch_str hh hne k t).2 hl
            rw [hs'] at hf
            simp at hf

/-- C153.  When there is no result the exception says why: a key that is needed is missing everywhere; or a key that is needed depends
on itself; or (TypeError) a key that is needed has a value that is not a string. -/
theorem interpolate_error {e : Engine} {chain : List Level} (hh : Healthy chain) {l : Level} {up : List Level} (hch : chain = l :: up)
    {key value : Text} (hv : assoc l.opts key = some (.str value)) {x : Err} (h : interpolate e chain key value = .error x) :
    (∃ k, Needs e chain value k ∧ x = .missing k ∧ (candidates chain k).findSome? usable = none) ∨
    (∃ k, Needs e chain value k ∧ x = .loop k ∧ Depends e chain k k) ∨
    (∃ k, Needs e chain value k ∧ x = .type ∧ lookup chain k = none) := by
  have hne : chain ≠ [] := by simp [hch]
  have hlk : lookup chain key = some value := by
    subst hch
    rw [lookup, candidates, List.findSome?_cons, hv]
    rfl
  have hx : x ≠ .fuel := by rintro rfl; exact interpolation_ends e chain key value h
  unfold interpolate at h
  split at h
  · obtain ⟨k, hk, hx'⟩ := expand_error value h
    have := expandKey_error hh hne (by
      intro p hp
      simp only [List.mem_singleton] at hp
      subst hp
      exact .step hlk hk) hx' hx
    have up : ∀ k'', (k'' = k ∨ Depends e chain k k'') → Needs e chain value k'' := by
      rintro k'' (rfl | h'')
      · exact .inl hk
      · exact .inr ⟨k, hk, h''⟩
    rcases this with ⟨k'', h1, h2⟩ | ⟨k'', h1, h2⟩ | ⟨k'', h1, h2⟩
    · exact .inl ⟨k'', up _ h1, h2⟩
    · exact .inr (.inl ⟨k'', up _ h1, h2⟩)
    · exact .inr (.inr ⟨k'', up _ h1, h2⟩)
  · simp at h

/-! ## Reading items -/

/-- C153.  With interpolation switched off an item is read as it is stored; so are values that are neither strings nor lists, always. -/
theorem getitem_raw (m : Setting) (cache : Option Engine) (l : Level) (up : List Level) (key : Text) {v : Val} (hv : assoc l.opts key = some v)
    (h : m = .off ∨ v = .none ∨ v = .other ∨ ∃ o, v = .sect o) : getitem m cache (l :: up) key = (m, cache, .ok v) := by
  rw [getitem, hv]
  rcases h with rfl | rfl | rfl | ⟨o, rfl⟩ <;> simp [asksEngine]

/-- C153.  A value is used for a reference exactly if it is there, not `None` and not a section. -/
theorem usable_iff (x : Option Val) (v : Val) : usable x = some v ↔ x = some v ∧ v ≠ .none ∧ ∀ o, v ≠ .sect o := by
  cases x with
  | none => simp [usable]
  | some w =>
    cases w <;> cases v <;> simp [usable]

/-- C153.  A reference is looked up together with the section that has the value, itself or in its `DEFAULT` section. -/
theorem fetch_level {chain : List Level} {k : Text} {v : Val} {s : Option Text} (h : fetch chain k = .ok (v, s)) :
    ∃ l ∈ chain, s = l.name ∧ (assoc l.opts k = some v ∨ ∃ o, assoc l.opts "DEFAULT".toList = some (.sect o) ∧ assoc o k = some v) := by
  induction chain with
  | nil => simp [fetch] at h
  | cons l up ih =>
    rw [fetch] at h
    cases hu : usable (assoc l.opts k) with
    | some w =>
      rw [hu] at h
      simp only [Except.ok.injEq, Prod.mk.injEq] at h
      obtain ⟨rfl, rfl⟩ := h
      exact ⟨l, by simp, rfl, .inl ((usable_iff _ _).1 hu).1⟩
    | none =>
      rw [hu] at h
      simp only at h
      have hdef : ∀ d, default l k = .ok d → ∀ w, d = some w → ∃ o, assoc l.opts "DEFAULT".toList = some (.sect o) ∧ assoc o k = some w := by
        intro d hd w hw
        unfold default at hd
        split at hd
        · simp only [Except.ok.injEq] at hd; subst hd; cases hw
        · rename_i o ho
          simp only [Except.ok.injEq] at hd
          exact ⟨o, ho, by rw [hd, hw]⟩
        · cases hd
      cases hd : default l k with
      | error x => rw [hd] at h; simp at h
      | ok d =>
        rw [hd] at h
        simp only at h
        cases hu2 : usable d with
        | some w =>
          rw [hu2] at h
          simp only [Except.ok.injEq, Prod.mk.injEq] at h
          obtain ⟨rfl, rfl⟩ := h
          exact ⟨l, by simp, rfl, .inr (hdef d hd _ ((usable_iff _ _).1 hu2).1)⟩
        | none =>
          rw [hu2] at h
          cases up with
          | cons m up =>
            simp only at h
            obtain ⟨l', h1, h2⟩ := ih h
            exact ⟨l', by simp [h1], h2⟩
          | nil =>
            simp only at h
            split at h
            · rename_i o
              simp only [Except.ok.injEq, Prod.mk.injEq] at h
              obtain ⟨rfl, rfl⟩ := h
              exact ⟨l, by simp, rfl, .inr (hdef _ hd _ rfl)⟩
            · cases h

/-- C153.  An empty name for the engine switches interpolation off; an unknown one does so the first time an item with a string is
read, which comes back as it is stored, except for a list of two or more strings: that raises AttributeError. -/
theorem unknown_engine (s : String) (l : Level) (up : List Level) (key : Text) {v : Val} (hv : assoc l.opts key = some v) :
    getitem (.named "") none (l :: up) key = (.named "", none, .ok v) ∧
    (s ≠ "" → engineOf (.named s) = none →
      (∀ t, v = .str t → getitem (.named s) none (l :: up) key = (.off, none, .ok v)) ∧
      (∀ xs, v = .list xs → getitem (.named s) none (l :: up) key =
        if (∀ x ∈ xs, x = .other) then (.named s, none, .ok v)
        else if (xs.filter fun x => decide (x ≠ .other)).length = 1 then (.off, none, .ok v) else (.off, none, .error .attribute))) := by
  refine ⟨by simp [getitem, hv], ?_⟩
  intro hs he
  refine ⟨?_, ?_⟩
  · rintro t rfl
    simp [getitem, hv, hs, asksEngine, he, noEngine]
  · rintro xs rfl
    simp only [getitem, hv, reduceCtorEq, Setting.named.injEq, hs, or_self, if_false, asksEngine, he, noEngine]
    by_cases ha : ∀ x ∈ xs, x = .other
    · rw [if_pos ha, if_pos]
      rw [List.any_eq_false]
      intro x hx
      simp [ha x hx]
    · rw [if_neg ha, if_neg]
      · have h1 : 1 ≤ (xs.filter fun x => decide (x ≠ .other)).length := by
          rw [Nat.one_le_iff_ne_zero]
          intro hlt
          have : (xs.filter fun x => decide (x ≠ .other)) = [] := List.length_eq_zero_iff.1 hlt
          rw [List.filter_eq_nil_iff] at this
          exact ha (fun x hx => by simpa using this x hx)
        by_cases h2 : (xs.filter fun x => decide (x ≠ .other)).length = 1
        · rw [if_pos h2, if_pos (by omega)]
        · rw [if_neg h2, if_neg (by omega)]
      · rw [List.any_eq_false]
        intro h
        exact ha (fun x hx => by simpa using h x hx)

/-- C153.  Reading a string with the default engine. -/
theorem getitem_string {l : Level} {up : List Level} {key value : Text} (hh : Healthy (l :: up)) (hv : assoc l.opts key = some (.str value)) (r : Text) :
    getitem .on none (l :: up) key = (.on, some .percent, .ok (.str r)) ↔ Means .percent (lookup (l :: up)) value r := by
  rw [← interpolate_exact hh rfl hv]
  simp only [getitem, hv, asksEngine, engineOf, interpVal]
  cases hi : interpolate .percent (l :: up) key value with
  | ok r' => simp [settingAfter]
  | error x => simp

/-- C153.  The engine is chosen the first time a section is read: changing the setting afterwards changes nothing but on and off. -/
theorem engine_sticks (m m' : Setting) (e : Engine) (chain : List Level) (key : Text) (h : m ≠ .off) (h' : m' ≠ .off)
    (hn : m ≠ .named "") (hn' : m' ≠ .named "") :
    (getitem m (some e) chain key).2.2 = (getitem m' (some e) chain key).2.2 := by
  cases chain with
  | nil => rfl
  | cons l up =>
    simp only [getitem]
    cases assoc l.opts key with
    | none => rfl
    | some v =>
      simp only [h, h', hn, hn', or_self, if_false]
      split <;> rfl

/-- C153.  A `DEFAULT` entry that is not a section makes the first reference that is not found in the section itself raise
AttributeError, and interpolation stays switched off from then on: the same item can be read afterwards, uninterpolated. -/
theorem scalar_default_switches_off {l : Level} {up : List Level} {key k t : Text} {d : Val} (m : Setting) (e : Engine)
    (hm : m ≠ .off) (hm' : m ≠ .named "") (hv : assoc l.opts key = some (.str ("%(".toList ++ k ++ ")s".toList))) (hk : ')' ∉ k)
    (hnk : assoc l.opts k = none) (hd : assoc l.opts "DEFAULT".toList = some (.str t)) (he : e = .percent) :
    getitem m (some e) (l :: up) key = (.off, some e, .error .attribute) ∧
    getitem .off (some e) (l :: up) key = (.off, some e, .ok (.str ("%(".toList ++ k ++ ")s".toList))) := by
  subst he
  have hr : RefAt .percent ("%(".toList ++ k ++ ")s".toList) (.ref k) [] := ⟨k, hk, rfl, by simp⟩
  have hf : fetch (l :: up) k = .error .attribute := by
    rw [fetch, hnk]
    simp only [usable, default, hd]
  have hi : interpolate .percent (l :: up) key ("%(".toList ++ k ++ ")s".toList) = .error .attribute := by
    rw [interpolate, if_pos (by simp [cookie])]
    rw [tokens_ref hr, expandWith, expandKey, hf]
  constructor
  · rw [getitem, hv]
    simp only [hm, hm', or_self, if_false, asksEngine, Bool.true_eq_false, interpVal, hi, settingAfter]
  · exact getitem_raw .off _ l up key hv (.inl rfl)

theorem entries_exact {f : Text → Except Err Text} : ∀ (l l' : List Entry),
    entries f l = .ok l' ↔ l.length = l'.length ∧ ∀ (i : Nat) (x : Entry), l[i]? = some x →
      ∃ y, l'[i]? = some y ∧ ((x = .other ∧ y = .other) ∨ ∃ t t', x = .str t ∧ y = .str t' ∧ f t = .ok t')
  | [], l' => by
    simp only [entries, Except.ok.injEq]
    constructor
    · rintro rfl; simp
    · rintro ⟨h, _⟩
      exact (List.length_eq_zero_iff.1 (by simpa using h.symm)).symm
  | x :: l, l' => by
    have ih := entries_exact (f := f) l
    constructor
    · intro h
      have : ∃ y r, l' = y :: r ∧ entries f l = .ok r ∧ ((x = .other ∧ y = .other) ∨ ∃ t t', x = .str t ∧ y = .str t' ∧ f t = .ok t') := by
        cases x with
        | other =>
          rw [entries] at h
          cases hl : entries f l with
          | error e => rw [hl] at h; simp at h
          | ok r =>
            rw [hl] at h
            simp only [Except.ok.injEq] at h
            exact ⟨.other, r, h.symm, rfl, .inl ⟨rfl, rfl⟩⟩
        | str t =>
          rw [entries] at h
          cases hf : f t with
          | error e => rw [hf] at h; simp at h
          | ok t' =>
            rw [hf] at h
            cases hl : entries f l with
            | error e => simp [hl] at h
            | ok r =>
              simp only [hl, Except.ok.injEq] at h
              exact ⟨.str t', r, h.symm, rfl, .inr ⟨t, t', rfl, rfl, hf⟩⟩
      obtain ⟨y, r, rfl, hl, hy⟩ := this
      obtain ⟨h1, h2⟩ := (ih r).1 hl
      refine ⟨by simp [h1], ?_⟩
      intro i z hz
      cases i with
      | zero =>
        simp only [List.getElem?_cons_zero, Option.some.injEq] at hz
        subst hz
        exact ⟨y, rfl, hy⟩
      | succ i => exact h2 i z hz
    · rintro ⟨h1, h2⟩
      cases l' with
      | nil => simp at h1
      | cons y r =>
        have hl : entries f l = .ok r := (ih r).2 ⟨by simpa using h1, fun i z hz => h2 (i + 1) z hz⟩
        obtain ⟨y', hy', hc⟩ := h2 0 x rfl
        simp only [List.getElem?_cons_zero, Option.some.injEq] at hy'
        subst hy'
        rcases hc with ⟨rfl, rfl⟩ | ⟨t, t', rfl, rfl, hf⟩
        · rw [entries, hl]
        · rw [entries, hf]
          simp only [hl]

/-! ## A case -/

local instance : DecidableEq (Except Err Text) := fun a b =>
  match a, b with
  | .ok x, .ok y => if h : x = y then isTrue (by rw [h]) else isFalse (by simpa using h)
  | .error x, .error y => if h : x = y then isTrue (by rw [h]) else isFalse (by simpa using h)
  | .ok _, .error _ => isFalse (by simp)
  | .error _, .ok _ => isFalse (by simp)

/-- `[paths]  root = %(base)s/data, base = /x/%(user)s, home = ${root}, port = 5, l1 = %(l2)s, l2 = %(l1)s` below a main section whose `DEFAULT`
section has `user = ann`. -/
def sampleChain : List Level :=
  [⟨some "paths".toList, [("root".toList, .str "%(base)s/data".toList), ("base".toList, .str "/x/%(user)s".toList), ("port".toList, .other),
     ("p".toList, .str "%(port)s".toList), ("l1".toList, .str "%(l2)s".toList), ("l2".toList, .str "%(l1)s".toList), ("q".toList, .str "%(nosuch)s".toList),
     ("a".toList, .str "%(root)s:%(root)s 100%".toList)]⟩,
   ⟨none, [("DEFAULT".toList, .sect [("user".toList, .str "ann".toList)])]⟩]

example : Healthy sampleChain := by
  intro l hl v hv
  simp only [sampleChain, List.mem_cons, List.not_mem_nil, or_false] at hl
  rcases hl with rfl | rfl
  · revert hv; simp [assoc]
  · simp only [assoc] at hv
    simp at hv
    exact ⟨_, hv.symm⟩

example : interpolate .percent sampleChain "a".toList "%(root)s:%(root)s 100%".toList = .ok "/x/ann/data:/x/ann/data 100%".toList := by
  decide +kernel

example : interpolate .percent sampleChain "l1".toList "%(l2)s".toList = .error (.loop "l1".toList) ∧
    interpolate .percent sampleChain "p".toList "%(port)s".toList = .error .type ∧
    interpolate .percent sampleChain "q".toList "%(nosuch)s".toList = .error (.missing "nosuch".toList) := by decide +kernel

example : interpolate .dollar sampleChain "z".toList "$$5 ${base} $user!".toList = .ok "$5 /x/%(user)s ann!".toList := by decide +kernel

end Verif.ConfigInterp
