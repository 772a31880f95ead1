import Verif.ConfigFile

/-!
# Reading what was written (configobj.py)
-/

namespace Verif.ConfigFile

/-! ## The matcher -/

theorem lazy_word {R : Type} (p : Char → Bool) (k : Str → Str → Option R) (x : R) : ∀ (w r acc : Str),
    (∀ c ∈ w, p c = true) → (∀ u v, w = u ++ v → v ≠ [] → k (acc ++ u) (v ++ r) = none) → k (acc ++ w) r = some x →
    lazyRun p k acc (w ++ r) = some x
  | [], r, acc, _, _, hk => by
    rw [List.append_nil] at hk
    cases r with
    | nil => simpa [lazyRun] using hk
    | cons c r => simp [lazyRun, hk]
  | c :: w, r, acc, hp, hn, hk => by
    have h0 := hn [] (c :: w) rfl (by simp)
    rw [List.append_nil, List.cons_append] at h0
    have hc := hp c List.mem_cons_self
    rw [List.cons_append, lazyRun, h0]
    simp only [hc, if_true]
    refine lazy_word p k x w r (acc ++ [c]) (fun d hd => hp d (List.mem_cons_of_mem _ hd)) ?_ ?_
    · intro u v hw hv
      have := hn (c :: u) v (by rw [hw]; rfl) hv
      simpa using this
    · simpa using hk

theorem greedy_word {R : Type} (p : Char → Bool) (k : Str → Str → Option R) (x : R) : ∀ (w r acc : Str),
    (∀ c ∈ w, p c = true) → (∀ c, r.head? = some c → p c = false) → k (acc ++ w) r = some x →
    greedyRun p k acc (w ++ r) = some x
  | [], r, acc, _, hr, hk => by
    rw [List.append_nil] at hk
    cases r with
    | nil => simpa [greedyRun] using hk
    | cons c r =>
      have := hr c rfl
      simp [greedyRun, this, hk]
  | c :: w, r, acc, hp, hr, hk => by
    have hc := hp c List.mem_cons_self
    have ih := greedy_word p k x w r (acc ++ [c]) (fun d hd => hp d (List.mem_cons_of_mem _ hd)) hr (by simpa using hk)
    rw [List.cons_append, greedyRun]
    simp only [hc, if_true, ih]

theorem greedy_fail {R : Type} (p : Char → Bool) (k : Str → Str → Option R) : ∀ (s acc : Str),
    (∀ u v, s = u ++ v → (∀ c ∈ u, p c = true) → k (acc ++ u) v = none) → greedyRun p k acc s = none
  | [], acc, h => by
    have := h [] [] rfl (by simp)
    simpa [greedyRun] using this
  | c :: s, acc, h => by
    have h0 := h [] (c :: s) rfl (by simp)
    rw [List.append_nil] at h0
    rw [greedyRun]
    by_cases hc : p c = true
    · have ih := greedy_fail p k s (acc ++ [c]) (by
        intro u v hs hu
        have := h (c :: u) v (by rw [hs]; rfl) (by
          intro d hd
          rcases List.mem_cons.1 hd with rfl | hd
          · exact hc
          · exact hu d hd)
        simpa using this)
      simp only [hc, if_true, ih, h0]
    · simp only [hc, if_false, h0]
      simp

/-- `\s*q` does not match at the beginning of a text whose first non-blank character is not `q`. -/
theorem skip_fail {R : Type} (q : Char) (k : Str → Str → Option R) (v r : Str)
    (hv : v ≠ []) (hq : q ∉ v) (hl : ∀ c, v.getLast? = some c → isS c = false) :
    greedyRun isS (fun sp s => lit q (fun s' => k sp s') s) [] (v ++ r) = none := by
  refine greedy_fail _ _ _ _ ?_
  intro a b hab ha
  have : ∃ c v', v = a ++ c :: v' := by
    rcases List.append_eq_append_iff.1 hab with ⟨a', h1, h2⟩ | ⟨b', h1, h2⟩
    · -- a = v ++ a'
      exfalso
      obtain ⟨l, hl2⟩ : ∃ c, v.getLast? = some c := by
        cases h : v.getLast? with
        | none => exact absurd (List.getLast?_eq_none_iff.1 h) hv
        | some c => exact ⟨c, rfl⟩
      have hm : l ∈ v := List.mem_of_getLast? hl2
      have := ha l (by rw [h1]; exact List.mem_append_left _ hm)
      rw [hl l hl2] at this
      cases this
    · cases b' with
      | nil =>
        exfalso
        rw [List.append_nil] at h1
        obtain ⟨l, hl2⟩ : ∃ c, v.getLast? = some c := by
          cases h : v.getLast? with
          | none => exact absurd (List.getLast?_eq_none_iff.1 h) hv
          | some c => exact ⟨c, rfl⟩
        have hm : l ∈ v := List.mem_of_getLast? hl2
        have := ha l (by rw [← h1]; exact hm)
        rw [hl l hl2] at this
        cases this
      | cons c b' => exact ⟨c, b', h1⟩
  obtain ⟨c, v', hv'⟩ := this
  have hb : b = c :: (v' ++ r) := by
    have : a ++ b = a ++ (c :: (v' ++ r)) := by
      rw [← hab, hv']; simp
    exact List.append_cancel_left this
  have hcq : c ≠ q := by
    rintro rfl
    exact hq (by rw [hv']; simp)
  rw [hb]
  simp [lit, hcq]

/-! ## What the writer produces -/

/-- A text without line ends. -/
def OneLine (v : Str) : Prop := '\n' ∉ v ∧ '\r' ∉ v

/-- A text that can be written and read: one line, no form feed at either end (which `\s` matches, but the writer does not protect). -/
def Clean (v : Str) : Prop := OneLine v ∧ v.head? ≠ some '\x0c' ∧ v.getLast? ≠ some '\x0c'

/-- The forms of a quoted text. -/
inductive Form (v : Str) : Str → Prop
  | plain (h0 : v ≠ []) (hc : ',' ∉ v) (hh : '#' ∉ v) (hf : ∀ c, v.head? = some c → isS c = false ∧ c ≠ '\'' ∧ c ≠ '"')
      (hl : ∀ c, v.getLast? = some c → isS c = false ∧ c ≠ '\'' ∧ c ≠ '"') : Form v v
  | dq (h : '"' ∉ v) : Form v ('"' :: (v ++ ['"']))
  | sq (h : '\'' ∉ v) : Form v ('\'' :: (v ++ ['\'']))

theorem not_plus (c : Char) (h : isPlus c = false) (hf : c ≠ '\x0c') : isS c = false ∧ c ≠ '\'' ∧ c ≠ '"' := by
  simp only [isPlus, Bool.or_eq_false_iff, beq_eq_false_iff_ne] at h
  refine ⟨?_, h.1.2, h.2⟩
  simp only [isS, Bool.or_eq_false_iff, beq_eq_false_iff_ne]
  tauto

theorem singleQuote_form (v q : Str) (h : singleQuote v = .ok q) : Form v q := by
  unfold singleQuote at h
  split at h
  · cases h
  · next h1 =>
    split at h
    · next h2 =>
      cases h
      exact .sq (fun h3 => h1 ⟨h3, h2⟩)
    · next h2 =>
      cases h
      exact .dq h2

theorem quote_form (v q : Str) (hv : Clean v) (h : quote v = .ok q) : Form v q := by
  unfold quote at h
  split at h
  · next h0 =>
    cases h
    rw [h0]
    exact Form.dq (v := []) (by simp)
  · next h0 =>
    split at h
    · cases h
    · split at h
      · next hp =>
        split at h
        · exact singleQuote_form v q h
        · next hh =>
          cases h
          obtain ⟨hp1, hp2⟩ := hp
          simp only [plainEnds, Bool.and_eq_true, Bool.not_eq_true'] at hp1
          refine .plain h0 hp2 hh ?_ ?_
          · intro c hc
            rw [hc] at hp1
            exact not_plus c (by simpa using hp1.1) (fun e => hv.2.1 (by rw [hc, e]))
          · intro c hc
            rw [hc] at hp1
            exact not_plus c (by simpa using hp1.2) (fun e => hv.2.2 (by rw [hc, e]))
      · exact singleQuote_form v q h

theorem dot_of (v : Str) (h : '\n' ∉ v) : ∀ c ∈ v, dot c = true := by
  intro c hc
  simp only [dot, bne_iff_ne, ne_eq]
  rintro rfl
  exact h hc

/-- A quoted text is matched up to its end. -/
theorem quoted_match {R : Type} (q : Char) (k : Str → Str → Option R) (v r : Str) (x : R) (hq : q ∉ v) (hn : '\n' ∉ v)
    (hk : k (q :: (v ++ [q])) r = some x) : quoted q k (q :: (v ++ [q]) ++ r) = some x := by
  unfold quoted
  rw [List.cons_append, List.append_assoc]
  simp only [lit, if_true]
  refine lazy_word dot _ x v ([q] ++ r) [] (dot_of v hn) ?_ ?_
  · intro a b hab hb
    cases b with
    | nil => exact absurd rfl hb
    | cons c b =>
      have : c ≠ q := by rintro rfl; exact hq (by rw [hab]; simp)
      simp [lit, this]
  · simpa [lit] using hk

/-- A text that does not begin with the quote is not matched. -/
theorem quoted_fail {R : Type} (q : Char) (k : Str → Str → Option R) (s : Str) (h : s.head? ≠ some q) : quoted q k s = none := by
  unfold quoted
  cases s with
  | nil => rfl
  | cons c s =>
    have : c ≠ q := by rintro rfl; exact h rfl
    simp [lit, this]

/-- An unquoted text is matched up to its end if the continuation fails before. -/
theorem unquoted_match {R : Type} (first more : Char → Bool) (k : Str → Str → Option R) (v r : Str) (x : R) (c : Char) (w : Str)
    (hv : v = c :: w) (hf : first c = true) (hm : ∀ d ∈ w, more d = true)
    (hn : ∀ a b, w = a ++ b → b ≠ [] → k (c :: a) (b ++ r) = none) (hk : k v r = some x) :
    unquoted first more k (v ++ r) = some x := by
  subst hv
  rw [List.cons_append]
  simp only [unquoted, hf, if_true]
  exact lazy_word more _ x w r [] hm (by simpa using hn) (by simpa using hk)

/-! ## The key -/

theorem afterKey_ok (key v : Str) (hv : ∀ c, v.head? = some c → isS c = false) :
    afterKey key (' ' :: '=' :: ' ' :: v) = some (key, v) := by
  unfold afterKey
  refine greedy_word isS _ (key, v) [' '] ('=' :: ' ' :: v) [] (by simp [isS]) (by intro c hc; cases hc; rfl) ?_
  simp only [lit, if_true]
  exact greedy_word isS _ (key, v) [' '] v [] (by simp [isS]) hv rfl

theorem getLast?_suffix (a b v : Str) (h : v = a ++ b) (hb : b ≠ []) : b.getLast? = v.getLast? := by
  rw [h, List.getLast?_append]
  cases hx : b.getLast? with
  | none => exact absurd (List.getLast?_eq_none_iff.1 hx) hb
  | some c => rfl

theorem keyword_ok (key qk v : Str) (hc : Clean key) (hf : Form key qk) (he : '=' ∉ key) (hv : ∀ c, v.head? = some c → isS c = false) :
    keyword (qk ++ (' ' :: '=' :: ' ' :: v)) = some (qk, v) := by
  unfold keyword
  have hrest := afterKey_ok qk v hv
  cases hf with
  | plain h0 hcm hh hfirst hlast =>
    obtain ⟨c, w, hw⟩ : ∃ c w, key = c :: w := by
      cases key with
      | nil => exact absurd rfl h0
      | cons c w => exact ⟨c, w, rfl⟩
    obtain ⟨hs, hs1, hs2⟩ := hfirst c (by rw [hw]; rfl)
    have hce : c ≠ '=' := by rintro rfl; exact he (by rw [hw]; simp)
    refine greedy_word isS _ _ [] _ [] (by simp) ?_ ?_
    · intro d hd
      rw [hw] at hd
      cases hd
      exact hs
    · rw [quoted_fail, quoted_fail]
      · simp only [Option.none_or]
        refine unquoted_match keyFirst dot afterKey key _ _ c w hw ?_ ?_ ?_ hrest
        · simp [keyFirst, hs1, hs2, hce]
        · intro d hd
          exact dot_of key hc.1.1 d (by rw [hw]; exact List.mem_cons_of_mem _ hd)
        · intro a b hab hb
          unfold afterKey
          refine skip_fail '=' (fun _ s' => greedyRun isS (fun _ v => some (c :: a, v)) [] s') b _ hb ?_ ?_
          · intro hm
            exact he (by rw [hw, hab]; simp [hm])
          · intro d hd
            have := getLast?_suffix (c :: a) b key (by rw [hw, hab]; rfl) hb
            exact (hlast d (by rw [← this]; exact hd)).1
      · rw [hw]; simpa using hs1
      · rw [hw]; simpa using hs2
  | dq h =>
    refine greedy_word isS _ _ [] ('"' :: (key ++ ['"']) ++ (' ' :: '=' :: ' ' :: v)) [] (by simp) ?_ ?_
    · intro d hd
      cases hd
      rfl
    · rw [quoted_match '"' afterKey key _ _ h hc.1.1 hrest]
      rfl
  | sq h =>
    refine greedy_word isS _ _ [] ('\'' :: (key ++ ['\'']) ++ (' ' :: '=' :: ' ' :: v)) [] (by simp) ?_ ?_
    · intro d hd
      cases hd
      rfl
    · rw [quoted_fail _ _ _ (by simp), quoted_match '\'' afterKey key _ _ h hc.1.1 hrest]
      rfl

/-! ## The values -/

theorem comma_ok {R : Type} (k : Str → Str → Option R) (txt r : Str) (x : R) (hr : ∀ c, r.head? = some c → isS c = false)
    (hk : k (txt ++ [',', ' ']) r = some x) : comma k txt (',' :: ' ' :: r) = some x := by
  unfold comma
  refine greedy_word isS _ x [] (',' :: ' ' :: r) [] (by simp) (by intro c hc; cases hc; rfl) ?_
  simp only [lit, if_true]
  refine greedy_word isS _ x [' '] r [] (by simp [isS]) hr ?_
  simpa using hk

theorem comma_fail {R : Type} (k : Str → Str → Option R) (txt v r : Str) (hv : v ≠ []) (hq : ',' ∉ v)
    (hl : ∀ c, v.getLast? = some c → isS c = false) : comma k txt (v ++ r) = none := by
  unfold comma
  exact skip_fail ',' (fun sp s' => greedyRun isS (fun sp2 s'' => k (txt ++ sp ++ ',' :: sp2) s'') [] s') v r hv hq hl

theorem comma_end {R : Type} (k : Str → Str → Option R) (txt : Str) : comma k txt [] = none := rfl

/-- The first item of a list. -/
theorem item_ok {R : Type} (k : Str → Str → Option R) (d qd r : Str) (x : R) (hc : Clean d) (hf : Form d qd)
    (hr : ∀ c, r.head? = some c → isS c = false) (hk : k (qd ++ [',', ' ']) r = some x) :
    item k (qd ++ (',' :: ' ' :: r)) = some x := by
  unfold item
  have hrest := comma_ok k qd r x hr hk
  cases hf with
  | plain h0 hcm hh hfirst hlast =>
    obtain ⟨c, w, hw⟩ : ∃ c w, d = c :: w := by
      cases d with
      | nil => exact absurd rfl h0
      | cons c w => exact ⟨c, w, rfl⟩
    obtain ⟨hs, hs1, hs2⟩ := hfirst c (by rw [hw]; rfl)
    have hcc : c ≠ ',' := by rintro rfl; exact hcm (by rw [hw]; simp)
    have hch : c ≠ '#' := by rintro rfl; exact hh (by rw [hw]; simp)
    rw [quoted_fail, quoted_fail]
    · simp only [Option.none_or]
      refine unquoted_match itemFirst itemMore (comma k) d _ _ c w hw ?_ ?_ ?_ hrest
      · simp [itemFirst, hs1, hs2, hcc, hch]
      · intro e he
        have h1 : e ≠ ',' := by rintro rfl; exact hcm (by rw [hw]; simp [he])
        have h2 : e ≠ '#' := by rintro rfl; exact hh (by rw [hw]; simp [he])
        simp [itemMore, h1, h2]
      · intro a b hab hb
        refine comma_fail k _ b _ hb ?_ ?_
        · intro hm
          exact hcm (by rw [hw, hab]; simp [hm])
        · intro e he
          have := getLast?_suffix (c :: a) b d (by rw [hw, hab]; rfl) hb
          exact (hlast e (by rw [← this]; exact he)).1
    · rw [hw]; simpa using hs1
    · rw [hw]; simpa using hs2
  | dq h =>
    rw [quoted_match '"' (comma k) d _ _ h hc.1.1 hrest]
    rfl
  | sq h =>
    rw [quoted_fail _ _ _ (by simp), quoted_match '\'' (comma k) d _ _ h hc.1.1 hrest]
    rfl

/-- A quoted text at the end is not followed by a comma. -/
theorem quoted_end {R : Type} (q : Char) (k : Str → Str → Option R) (v : Str) (hq : q ∉ v) :
    quoted q (comma k) (q :: (v ++ [q])) = none := by
  unfold quoted
  simp only [lit, if_true]
  have : ∀ (w acc : Str), q ∉ w →
      lazyRun dot (fun acc rest => lit q (fun rest' => comma k (q :: (acc ++ [q])) rest') rest) acc (w ++ [q]) = none := by
    intro w
    induction w with
    | nil =>
      intro acc _
      rw [List.nil_append, lazyRun]
      simp only [lit, if_true, comma_end]
      split <;> rfl
    | cons c w ih =>
      intro acc hw
      have hc : c ≠ q := by rintro rfl; exact hw List.mem_cons_self
      rw [List.cons_append, lazyRun]
      simp only [lit, hc, if_false]
      split
      · exact ih _ (fun h => hw (List.mem_cons_of_mem _ h))
      · rfl
  exact this v [] hq

/-- The last text is no item with a comma. -/
theorem item_last {R : Type} (k : Str → Str → Option R) (f qf : Str) (hf : Form f qf) : item k qf = none := by
  unfold item
  cases hf with
  | plain h0 hcm hh hfirst hlast =>
    obtain ⟨c, w, hw⟩ : ∃ c w, f = c :: w := by
      cases f with
      | nil => exact absurd rfl h0
      | cons c w => exact ⟨c, w, rfl⟩
    obtain ⟨hs, hs1, hs2⟩ := hfirst c (by rw [hw]; rfl)
    rw [quoted_fail _ _ _ (by rw [hw]; simpa using hs2), quoted_fail _ _ _ (by rw [hw]; simpa using hs1)]
    simp only [Option.none_or]
    have hcw : ',' ∉ w := fun h => hcm (by rw [hw]; simp [h])
    have : ∀ (w acc : Str), ',' ∉ w → lazyRun itemMore (fun acc rest => comma k (c :: acc) rest) acc w = none := by
      intro w
      induction w with
      | nil => intro acc _; rfl
      | cons e w ih =>
        intro acc hw
        have h0 : comma k (c :: acc) (e :: w) = none := by
          unfold comma
          refine greedy_fail _ _ _ _ ?_
          intro a b hab _
          cases b with
          | nil => rfl
          | cons b0 b =>
            have : b0 ≠ ',' := by rintro rfl; exact hw (by rw [hab]; simp)
            simp [lit, this]
        rw [lazyRun, h0]
        simp only
        split
        · exact ih _ (fun h => hw (List.mem_cons_of_mem _ h))
        · rfl
    rw [hw]
    simp only [unquoted]
    split
    · exact this w [] hcw
    · rfl
  | dq h =>
    rw [quoted_end '"' k f h, quoted_fail _ _ _ (by simp)]
    simp [unquoted, itemFirst]
  | sq h =>
    rw [quoted_fail _ _ _ (by simp), quoted_end '\'' k f h]
    simp [unquoted, itemFirst]

theorem tailEnd_nil {R : Type} (x : R) : tailEnd x [] = some x := rfl

theorem tailEnd_fail {R : Type} (x : R) (v : Str) (hv : v ≠ []) (hh : '#' ∉ v) (hl : ∀ c, v.getLast? = some c → isS c = false) :
    tailEnd x v = none := by
  unfold tailEnd
  refine greedy_fail _ _ _ _ ?_
  intro a b hab ha
  cases b with
  | nil =>
    exfalso
    rw [List.append_nil] at hab
    obtain ⟨l, hl2⟩ : ∃ c, v.getLast? = some c := by
      cases h : v.getLast? with
      | none => exact absurd (List.getLast?_eq_none_iff.1 h) hv
      | some c => exact ⟨c, rfl⟩
    have := ha l (by rw [← hab]; exact List.mem_of_getLast? hl2)
    rw [hl l hl2] at this
    cases this
  | cons c b =>
    have : c ≠ '#' := by rintro rfl; exact hh (by rw [hab]; simp)
    simp [tailOk, this]

/-- The last text is the single value. -/
theorem lastItem_ok (acc f qf : Str) (hc : Clean f) (hf : Form f qf) :
    lastItem (fun sg r2 => tailEnd (some (acc, sg)) r2) acc qf = some (some (acc, some qf)) := by
  unfold lastItem
  cases hf with
  | plain h0 hcm hh hfirst hlast =>
    obtain ⟨c, w, hw⟩ : ∃ c w, f = c :: w := by
      cases f with
      | nil => exact absurd rfl h0
      | cons c w => exact ⟨c, w, rfl⟩
    obtain ⟨hs, hs1, hs2⟩ := hfirst c (by rw [hw]; rfl)
    have hcc : c ≠ ',' := by rintro rfl; exact hcm (by rw [hw]; simp)
    have hch : c ≠ '#' := by rintro rfl; exact hh (by rw [hw]; simp)
    rw [quoted_fail _ _ _ (by rw [hw]; simpa using hs2), quoted_fail _ _ _ (by rw [hw]; simpa using hs1)]
    simp only [Option.none_or]
    have := unquoted_match lastFirst lastMore (fun t r => tailEnd (some (acc, some t)) r) f [] (some (acc, some f)) c w hw
      (by simp [lastFirst, hs, hs1, hs2, hcc, hch])
      (by
        intro e he
        have h1 : e ≠ ',' := by rintro rfl; exact hcm (by rw [hw]; simp [he])
        simp [lastMore, h1])
      (by
        intro a b hab hb
        rw [List.append_nil]
        refine tailEnd_fail _ b hb ?_ ?_
        · intro hm; exact hh (by rw [hw, hab]; simp [hm])
        · intro e he
          have := getLast?_suffix (c :: a) b f (by rw [hw, hab]; rfl) hb
          exact (hlast e (by rw [← this]; exact he)).1)
      rfl
    rw [List.append_nil] at this
    rw [this]
    rfl
  | dq h =>
    have := quoted_match '"' (fun t r => tailEnd (some (acc, some t)) r) f [] (some (acc, some ('"' :: (f ++ ['"'])))) h hc.1.1 rfl
    rw [List.append_nil] at this
    rw [this]
    rfl
  | sq h =>
    have := quoted_match '\'' (fun t r => tailEnd (some (acc, some t)) r) f [] (some (acc, some ('\'' :: (f ++ ['\''])))) h hc.1.1 rfl
    rw [List.append_nil] at this
    rw [quoted_fail _ _ _ (by simp), this]
    rfl

theorem form_head (v q : Str) (h : Form v q) : q ≠ [] ∧ ∀ c, q.head? = some c → isS c = false := by
  cases h with
  | plain h0 _ _ hf _ => exact ⟨h0, fun c hc => (hf c hc).1⟩
  | dq _ => exact ⟨by simp, fun c hc => by cases hc; rfl⟩
  | sq _ => exact ⟨by simp, fun c hc => by cases hc; rfl⟩

/-- The whole value: first text, comma, last text. -/
theorem valueExp_ok (d f qd qf : Str) (hd : Clean d) (hf : Clean f) (fd : Form d qd) (ff : Form f qf) :
    valueExp (qd ++ (',' :: ' ' :: qf)) = some (some (qd ++ [',', ' '], some qf)) := by
  have hlen : ∃ n, (qd ++ (',' :: ' ' :: qf)).length = n + 2 := ⟨qd.length + qf.length, by simp; omega⟩
  obtain ⟨n, hn⟩ := hlen
  have key : items (n + 2) (fun acc r => lastItem (fun sg r2 => tailEnd (some (acc, sg)) r2) acc r) [] (qd ++ (',' :: ' ' :: qf)) =
      some (some (qd ++ [',', ' '], some qf)) := by
    rw [items]
    rw [item_ok _ d qd qf (some (qd ++ [',', ' '], some qf)) hd fd (form_head f qf ff).2]
    · rfl
    · rw [items, item_last _ f qf ff]
      simp only [Option.none_or, List.nil_append]
      exact lastItem_ok _ f qf hf ff
  unfold valueExp
  rw [hn, key]
  rfl

/-! ## The list of the items -/

theorem listMatch_ok (d qd : Str) (hd : Clean d) (fd : Form d qd) : listMatch (qd ++ [',', ' ']) = some (qd, []) := by
  have hrest : ∀ t : Str, comma (fun _ r2 => some (t, r2)) [] [',', ' '] = some (t, ([] : Str)) := by
    intro t
    exact comma_ok (fun _ r2 => some (t, r2)) [] [] (t, []) (by simp) rfl
  unfold listMatch
  cases fd with
  | plain h0 hcm hh hfirst hlast =>
    obtain ⟨c, w, hw⟩ : ∃ c w, d = c :: w := by
      cases d with
      | nil => exact absurd rfl h0
      | cons c w => exact ⟨c, w, rfl⟩
    obtain ⟨hs, hs1, hs2⟩ := hfirst c (by rw [hw]; rfl)
    have hcc : c ≠ ',' := by rintro rfl; exact hcm (by rw [hw]; simp)
    have hch : c ≠ '#' := by rintro rfl; exact hh (by rw [hw]; simp)
    rw [quoted_fail _ _ _ (by rw [hw]; simpa using hs2), quoted_fail _ _ _ (by rw [hw]; simpa using hs1)]
    simp only [Option.none_or]
    have := unquoted_match itemFirst dot (fun t r => comma (fun _ r2 => some (t, r2)) [] r) d [',', ' '] (d, []) c w hw
      (by simp [itemFirst, hs1, hs2, hcc, hch])
      (by intro e he; exact dot_of d hd.1.1 e (by rw [hw]; exact List.mem_cons_of_mem _ he))
      (by
        intro a b hab hb
        refine comma_fail _ _ b _ hb ?_ ?_
        · intro hm; exact hcm (by rw [hw, hab]; simp [hm])
        · intro e he
          have := getLast?_suffix (c :: a) b d (by rw [hw, hab]; rfl) hb
          exact (hlast e (by rw [← this]; exact he)).1)
      (hrest d)
    rw [this]
    rfl
  | dq h =>
    rw [quoted_match '"' (fun t r => comma (fun _ r2 => some (t, r2)) [] r) d [',', ' '] _ h hd.1.1 (hrest _)]
    rfl
  | sq h =>
    rw [quoted_fail _ _ _ (by simp),
      quoted_match '\'' (fun t r => comma (fun _ r2 => some (t, r2)) [] r) d [',', ' '] _ h hd.1.1 (hrest _)]
    rfl

theorem findAll_ok (d qd : Str) (hd : Clean d) (fd : Form d qd) (n : Nat) : findAll (n + 2) (qd ++ [',', ' ']) = [qd] := by
  unfold findAll
  rw [listMatch_ok d qd hd fd]
  rfl

theorem unquote_form (v q : Str) (h : Form v q) : unquote q = some v := by
  cases h with
  | plain h0 _ _ hf _ =>
    unfold unquote
    rw [if_neg h0, if_neg]
    rintro ⟨-, h1 | h1⟩
    · exact (hf _ h1).2.2 rfl
    · exact (hf _ h1).2.1 rfl
  | dq h =>
    unfold unquote
    rw [if_neg (by simp), if_pos ⟨by rw [show '"' :: (v ++ ['"']) = ('"' :: v) ++ ['"'] from rfl, List.getLast?_append]; simp, by simp⟩]
    simp
  | sq h =>
    unfold unquote
    rw [if_neg (by simp), if_pos ⟨by rw [show '\'' :: (v ++ ['\'']) = ('\'' :: v) ++ ['\''] from rfl, List.getLast?_append]; simp, by simp⟩]
    simp

theorem handleValue_ok (d f qd qf : Str) (hd : Clean d) (hf : Clean f) (fd : Form d qd) (ff : Form f qf) :
    handleValue (qd ++ (',' :: ' ' :: qf)) = some (.list [d, f]) := by
  have hne : qf ≠ [] := (form_head f qf ff).1
  have hs : singleOf (qd ++ [',', ' ']) (some qf) = some (some f) := by
    unfold singleOf
    simp only
    rw [if_neg (by rintro ⟨-, h⟩; exact hne h), if_neg hne, unquote_form f qf ff]
    rfl
  have hl : listOf (qd ++ [',', ' ']) (some f) = some (.list [d, f]) := by
    unfold listOf
    rw [if_neg (by simp)]
    have : (qd ++ [',', ' ']).length + 1 = qd.length + 1 + 2 := by simp
    rw [this, findAll_ok d qd hd fd]
    simp [unquoteAll, unquote_form d qd fd]
  unfold handleValue
  rw [valueExp_ok d f qd qf hd hf fd ff]
  simp only
  rw [if_neg (by simp), hs]
  simp only
  exact hl

/-! ## One line -/

/-- A name that is read back: clean, without `=`, not beginning with a bracket. -/
def NameOk (n : Str) : Prop := Clean n ∧ '=' ∉ n ∧ n.head? ≠ some '['

theorem triple_no (d f qd qf : Str) (fd : Form d qd) : triple (qd ++ (',' :: ' ' :: qf)) = false := by
  have key : ∀ q : Char, q ∉ d → (',' ≠ q) → (q :: (d ++ [q]) ++ (',' :: ' ' :: qf)).take 3 ≠ [q, q, q] := by
    intro q hq hcq h
    cases d with
    | nil => simp at h; exact hcq h
    | cons c d =>
      simp at h
      exact hq (by rw [h.1]; simp)
  cases fd with
  | plain h0 _ _ hf _ =>
    obtain ⟨c, w, hw⟩ : ∃ c w, d = c :: w := by
      cases d with
      | nil => exact absurd rfl h0
      | cons c w => exact ⟨c, w, rfl⟩
    obtain ⟨-, hs1, hs2⟩ := hf c (by rw [hw]; rfl)
    rw [hw]
    simp [triple, hs1, hs2]
  | dq h =>
    have h1 := key '"' h (by decide)
    have h2 : ('"' :: (d ++ ['"']) ++ (',' :: ' ' :: qf)).take 3 ≠ ['\'', '\'', '\''] := by simp
    simp only [triple, Bool.or_eq_false_iff, beq_eq_false_iff_ne]
    exact ⟨h1, h2⟩
  | sq h =>
    have h1 := key '\'' h (by decide)
    have h2 : ('\'' :: (d ++ ['\'']) ++ (',' :: ' ' :: qf)).take 3 ≠ ['"', '"', '"'] := by simp
    simp only [triple, Bool.or_eq_false_iff, beq_eq_false_iff_ne]
    exact ⟨h2, h1⟩

theorem classify_aux (c : Char) (l : Str) (hs : isS c = false) (hh : c ≠ '#') (hb : c ≠ '[') :
    classify (c :: l) = (match keyword (c :: l) with
    | none => Line.bad
    | some (k, v) =>
      if triple v then Line.other
      else match handleValue v with
        | none => Line.bad
        | some val => match unquote k with
          | none => Line.bad
          | some k' => Line.entry k' val) := by
  have : lstrip (c :: l) = c :: l := by simp [lstrip, hs]
  unfold classify
  rw [this]
  split
  · next h => cases h
  · next h => cases h; exact absurd rfl hh
  · next h => cases h; exact absurd rfl hb
  · rfl

/-- **The line that is written for a pair of texts is read as that pair.** -/
theorem classify_written (n d f qn qd qf : Str) (hn : NameOk n) (hd : Clean d) (hf : Clean f) (h1 : quote n = .ok qn)
    (h2 : quote d = .ok qd) (h3 : quote f = .ok qf) :
    classify (qn ++ (' ' :: '=' :: ' ' :: (qd ++ (',' :: ' ' :: qf)))) = .entry n (.list [d, f]) := by
  have fn := quote_form n qn hn.1 h1
  have fd := quote_form d qd hd h2
  have ff := quote_form f qf hf h3
  have hv : ∀ c, (qd ++ (',' :: ' ' :: qf)).head? = some c → isS c = false := by
    intro c hc
    have ⟨hne, hh⟩ := form_head d qd fd
    cases qd with
    | nil => exact absurd rfl hne
    | cons e q => exact hh c (by simpa using hc)
  have hk := keyword_ok n qn _ hn.1 fn hn.2.1 hv
  obtain ⟨c, w, hw⟩ : ∃ c w, qn = c :: w := by
    cases hq : qn with
    | nil => exact absurd hq (form_head n qn fn).1
    | cons c w => exact ⟨c, w, rfl⟩
  have hc : isS c = false ∧ c ≠ '#' ∧ c ≠ '[' := by
    refine ⟨(form_head n qn fn).2 c (by rw [hw]; rfl), ?_, ?_⟩
    · rintro rfl
      cases fn with
      | plain _ _ hh _ _ => exact hh (by rw [hw]; simp)
      | dq _ => cases hw
      | sq _ => cases hw
    · rintro rfl
      cases fn with
      | plain _ _ _ _ _ => exact hn.2.2 (by rw [hw]; rfl)
      | dq _ => cases hw
      | sq _ => cases hw
  rw [hw, List.cons_append, classify_aux c _ hc.1 hc.2.1 hc.2.2, ← List.cons_append, ← hw, hk]
  simp only
  rw [triple_no d f qd qf fd, handleValue_ok d f qd qf hd hf fd ff, unquote_form n qn fn]
  simp

end Verif.ConfigFile
