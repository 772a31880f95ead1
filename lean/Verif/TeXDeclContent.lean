import Verif.TeXDecl

/-!
# What a declaration in braces contains (C38)

The printed text alone does not say which part of it the parser takes for the content of a
declaration `{\bf ...}`.  Here: exactly the text up to the brace that closes the declaration.
-/

namespace Verif.TeX

/-! ## Specification -/

/-- The braces of a text are balanced: as many closing as opening ones, and never more closing than
opening ones in any beginning of the text. -/
def Balanced (k : Str) : Prop :=
  k.count '{' = k.count '}' ∧ ∀ p, p <+: k → p.count '}' ≤ p.count '{'

/-- The nodes of a text without commands and mathematics: its lines, with line ends between. -/
def linesOf (t : Str) : List Node := lineNodes (splitLines t)

/-! ## Texts without commands and mathematics -/

theorem envAt_none {c : Char} {l : Str} (h1 : c ≠ '\\') (h2 : c ≠ '$') : envAt (c :: l) = none := by
  unfold envAt
  rw [if_neg (by simp [List.isPrefixOf]; intro h; exact absurd h.symm h1)]
  unfold mathAt
  split
  · rename_i h; simp only [List.cons.injEq] at h; exact absurd h.1 h2
  · rfl

theorem envSplit_none (f : Nat) : ∀ l : Str, (∀ c t, (c :: t) <:+ l → envAt (c :: t) = none) → envSplit f l = ([], l) := by
  induction f with
  | zero => intro l _; rfl
  | succ f ih =>
    intro l h
    cases l with
    | nil =>
      have : envAt ([] : Str) = none := by decide
      simp only [envSplit, this]
    | cons c l =>
      simp only [envSplit, h c l List.suffix_rfl]
      rw [ih l (fun d t ht => h d t (ht.trans (List.suffix_cons _ _)))]

theorem command_none {c : Char} {l : Str} (h : c ≠ '\\') : command (c :: l) = none := by
  unfold command
  split
  · rename_i h'; simp only [List.cons.injEq] at h'; exact absurd h'.1 h
  · rfl

theorem commandSplit_none (f : Nat) : ∀ l : Str, '\\' ∉ l → commandSplit f l = ([], l) := by
  induction f with
  | zero => intro l _; rfl
  | succ f ih =>
    intro l h
    cases l with
    | nil => rfl
    | cons c l =>
      have hc : c ≠ '\\' := fun e => h (by simp [e])
      simp only [commandSplit, command_none (l := l) hc]
      rw [ih l (fun hm => h (by simp [hm]))]

/-- A text without backslash and dollar becomes its lines. -/
theorem parse_text (f : Nat) (t : Str) (h1 : '\\' ∉ t) (h2 : '$' ∉ t) : parse (f + 1) t = .ok (linesOf t) := by
  have e : envSplit t.length t = ([], t) := envSplit_none _ t (fun c s hs =>
    envAt_none (fun hc => h1 (hs.subset (by simp [hc]))) (fun hc => h2 (hs.subset (by simp [hc]))))
  unfold parse
  simp only [e, firstItems, commandSplit_none _ t h1, chunkItems, fixLeftRight, leftRight, List.length_cons,
    List.length_nil, encLoop, deleteAll, finish, linesOf, List.append_nil, Nat.zero_add, Nat.reduceSubDiff]

theorem text_to_lines (t : Str) (h1 : '\\' ∉ t) (h2 : '$' ∉ t) : toNodes t = .ok (linesOf t) :=
  parse_text _ t h1 h2

/-! ## One declaration -/

theorem isSpace_plain {s : Char} (h : isSpace s = true) : isWord s = false ∧ s ≠ '{' ∧ s ≠ '[' ∧ s ≠ '*' ∧ s ≠ '\\' ∧ s ≠ '$' := by
  refine ⟨?_, ?_, ?_, ?_, ?_, ?_⟩
  · cases hw : isWord s with
    | false => rfl
    | true =>
      exfalso
      simp only [isSpace, decide_eq_true_eq, List.mem_cons, List.not_mem_nil, or_false] at h
      rcases h with rfl | rfl | rfl | rfl | rfl | rfl <;> exact absurd hw (by decide)
  all_goals (rintro rfl; exact absurd h (by decide))

theorem nameLoop_found {s : Char} (hs : isSpace s = true) (k : Str) : ∀ (n name : Str), (∀ c ∈ n, isWord c = true) →
    nameLoop name (n ++ s :: k) = some (name ++ n, [], s :: k) := by
  have hsp := isSpace_plain hs
  intro n
  induction n with
  | nil =>
    intro name _
    have hg : group (s :: k) = none := by simp [group, hsp.2.1, hsp.2.2.1]
    have ha : argsAt (s :: k) = some ([], s :: k) := by simp [argsAt, hg, hsp.1]
    have he : nameEnd name (s :: k) = some (name, [], s :: k) := by
      unfold nameEnd
      split
      · rename_i h; simp only [List.cons.injEq] at h; exact absurd h.1 hsp.2.2.2.1
      · simp [ha]
    simp [nameLoop, he]
  | cons c n ih =>
    intro name hw
    have hc := hw c (by simp)
    have hne : c ≠ '{' ∧ c ≠ '[' ∧ c ≠ '*' ∧ c ≠ '\n' := by
      refine ⟨?_, ?_, ?_, ?_⟩ <;> rintro rfl <;> exact absurd hc (by decide)
    have hg : group (c :: (n ++ s :: k)) = none := by simp [group, hne.1, hne.2.1]
    have ha : argsAt (c :: (n ++ s :: k)) = none := by simp [argsAt, hg, hc]
    have he : nameEnd name (c :: (n ++ s :: k)) = none := by
      unfold nameEnd
      split
      · rename_i h; simp only [List.cons.injEq] at h; exact absurd h.1 hne.2.2.1
      · simp [ha]
    simp only [List.cons_append, nameLoop, he, if_neg hne.2.2.2]
    rw [ih (name ++ [c]) (fun d hd => hw d (by simp [hd]))]
    simp

theorem commandSplit_one {n k : Str} {s : Char} (hn : n ≠ []) (hw : ∀ c ∈ n, isWord c = true) (hs : isSpace s = true)
    (hk : '\\' ∉ k) : ∀ (x : Str) (f : Nat), '\\' ∉ x → x.length < f →
    commandSplit f (x ++ '\\' :: (n ++ s :: k)) = ([(x, n, [])], s :: k) := by
  intro x
  induction x with
  | nil =>
    intro f _ hf
    cases f with
    | zero => simp at hf
    | succ f =>
      cases n with
      | nil => exact absurd rfl hn
      | cons c n =>
        have hc : command ('\\' :: (c :: n ++ s :: k)) = some (c :: n, [], s :: k) := by
          simp only [List.cons_append, command, hw c (by simp), if_true]
          exact nameLoop_found hs k n [c] (fun d hd => hw d (by simp [hd]))
        simp only [List.nil_append, commandSplit, hc]
        rw [commandSplit_none f (s :: k) (by
          simp only [List.mem_cons, not_or]
          exact ⟨(isSpace_plain hs).2.2.2.2.1.symm, hk⟩)]
  | cons c x ih =>
    intro f hx hf
    cases f with
    | zero => simp at hf
    | succ f =>
      simp only [List.cons_append, commandSplit, command_none (c := c) (fun e => hx (by simp [e]))]
      rw [ih f (fun hm => hx (by simp [hm])) (by simpa using hf)]

theorem closing_balanced {r : Str} : ∀ (k : Str) (n : Int), 1 ≤ n →
    (∀ p, p <+: k → (p.count '}' : Int) ≤ p.count '{' + n - 1) → (k.count '}' : Int) = k.count '{' + n - 1 →
    closing n (k ++ '}' :: r) = some (k, r) := by
  intro k
  induction k with
  | nil =>
    intro n _ _ h
    have : n = 1 := by simp at h; omega
    subst this
    simp [closing]
  | cons c k ih =>
    intro n hn hp he
    simp only [List.cons_append, closing]
    have hstep : ∀ n' : Int, n' = (if c = '{' then n + 1 else if c = '}' then n - 1 else n) → n' ≠ 0 ∧
        closing n' (k ++ '}' :: r) = some (k, r) := by
      intro n' hn'
      have h1 := hp [c] ⟨k, rfl⟩
      have hcnt : ∀ q : Str, (((c :: q).count '}' : Int) - (c :: q).count '{' - n) = (q.count '}' : Int) - q.count '{' - n' := by
        intro q
        simp only [List.count_cons]
        rw [hn']
        split_ifs <;> simp_all <;> omega
      have h0 := hcnt []
      simp only [List.count_nil] at h0
      have hn1 : 1 ≤ n' := by simp only [Nat.cast_zero] at h0; omega
      refine ⟨by omega, ih n' hn1 ?_ ?_⟩
      · intro q hq
        have h2 := hp (c :: q) (by
          obtain ⟨z, rfl⟩ := hq
          exact ⟨z, rfl⟩)
        have := hcnt q
        omega
      · have := hcnt k
        omega
    obtain ⟨h1, h2⟩ := hstep _ rfl
    rw [if_neg h1, h2]
    rfl

/-- **C38** A declaration: the text `x{ws\n k}r`, where `\n` is a command followed by white space, and
`x`, `k`, `r` contain no further commands and mathematics, has three parts: the lines of `x`, the
declaration with command `n`, whose children are the lines of `k`, and the lines of `r`. -/
theorem declaration_content (x ws n k r : Str) (hws : Spaces ws) (hn : n ≠ []) (hw : ∀ c ∈ n, isWord c = true)
    (hk : ∃ s k', k = s :: k' ∧ isSpace s = true) (hb : Balanced k) (hr : r.count '{' ≤ r.count '}' + 1)
    (h1 : ∀ c ∈ ['\\', '$'], c ∉ x ++ k ++ r) :
    toNodes (x ++ '{' :: ws ++ '\\' :: n ++ k ++ '}' :: r) =
      .ok (linesOf x ++ .enc ws (.cmd n []) (linesOf k) :: linesOf r) := by
  obtain ⟨s, k', rfl, hs⟩ := hk
  have hbs : '\\' ∉ x ∧ '\\' ∉ s :: k' ∧ '\\' ∉ r := by
    have := h1 '\\' (by simp)
    simp only [List.mem_append, not_or] at this
    exact ⟨this.1.1, this.1.2, this.2⟩
  have hds : '$' ∉ x ∧ '$' ∉ s :: k' ∧ '$' ∉ r := by
    have := h1 '$' (by simp)
    simp only [List.mem_append, not_or] at this
    exact ⟨this.1.1, this.1.2, this.2⟩
  have hwsb : '\\' ∉ ws ∧ '$' ∉ ws := ⟨fun h => (isSpace_plain (hws _ h)).2.2.2.2.1 rfl, fun h => (isSpace_plain (hws _ h)).2.2.2.2.2 rfl⟩
  have hnb : '\\' ∉ n ∧ '$' ∉ n := ⟨fun h => absurd (hw _ h) (by decide), fun h => absurd (hw _ h) (by decide)⟩
  generalize htxt : x ++ '{' :: ws ++ '\\' :: n ++ (s :: k') ++ '}' :: r = txt
  have e0 : txt = (x ++ '{' :: ws) ++ '\\' :: (n ++ s :: (k' ++ '}' :: r)) := by rw [← htxt]; simp
  have hX : '\\' ∉ x ++ '{' :: ws := by simp [hbs.1, hwsb.1]
  have hK : '\\' ∉ k' ++ '}' :: r := by
    simp only [List.mem_append, List.mem_cons, not_or]
    exact ⟨fun h => hbs.2.1 (by simp [h]), by decide, hbs.2.2⟩
  have hT : '\\' ∉ n ++ s :: (k' ++ '}' :: r) := by
    simp only [List.mem_append, List.mem_cons, not_or] at hK ⊢
    exact ⟨hnb.1, (isSpace_plain hs).2.2.2.2.1.symm, hK⟩
  have hD : '$' ∉ txt := by
    rw [← htxt]
    simp only [List.mem_append, List.mem_cons, not_or]
    simp only [List.mem_cons, not_or] at hds
    exact ⟨⟨⟨⟨hds.1, by decide, hwsb.2⟩, by decide, hnb.2⟩, hds.2.1⟩, by decide, hds.2.2⟩
  have hat : ∀ c t, (c :: t) <:+ txt → envAt (c :: t) = none := by
    intro c t ht
    have hc : c ≠ '$' := fun e => hD (ht.subset (by simp [e]))
    by_cases hcb : c = '\\'
    · subst hcb
      have ht' : t = n ++ s :: (k' ++ '}' :: r) := by
        obtain ⟨p, hp⟩ := ht
        rw [e0] at hp
        rcases List.append_eq_append_iff.mp hp with ⟨d, e1, e2⟩ | ⟨d, e1, e2⟩
        · cases d with
          | nil => simpa using e2
          | cons y d =>
            exfalso
            simp only [List.cons_append, List.cons.injEq] at e2
            apply hX
            rw [e1, ← e2.1]; simp
        · cases d with
          | nil => simpa using e2.symm
          | cons y d =>
            exfalso
            simp only [List.cons_append, List.cons.injEq] at e2
            apply hT
            rw [e2.2]; simp
      subst ht'
      have hpre : ("\\begin{".toList).isPrefixOf ('\\' :: (n ++ s :: (k' ++ '}' :: r))) = false := by
        rw [← Bool.not_eq_true, List.isPrefixOf_iff_prefix]
        intro h
        have h : "begin{".toList <+: n ++ s :: (k' ++ '}' :: r) := by
          obtain ⟨z, hz⟩ := h
          refine ⟨z, ?_⟩
          have hz' : '\\' :: ("begin{".toList ++ z) = '\\' :: (n ++ s :: (k' ++ '}' :: r)) := hz
          exact (List.cons.inj hz').2
        obtain ⟨z, hz⟩ := h
        rcases List.append_eq_append_iff.mp hz with ⟨d, e1, e2⟩ | ⟨d, e1, e2⟩
        · have : isWord '{' = true := hw '{' (by rw [e1]; simp)
          exact absurd this (by decide)
        · cases d with
          | nil =>
            have : isWord '{' = true := hw '{' (by rw [List.append_nil] at e1; rw [← e1]; decide)
            exact absurd this (by decide)
          | cons y d =>
            simp only [List.cons_append, List.cons.injEq] at e2
            have hy : y ∈ "begin{".toList := by rw [e1]; simp
            rw [← e2.1] at hy
            have : ∀ c ∈ "begin{".toList, isSpace c = false := by decide
            rw [this s hy] at hs; cases hs
      unfold envAt
      rw [if_neg (by rw [hpre]; simp)]
      rfl
    · exact envAt_none hcb hc
  have e1 : envSplit txt.length txt = ([], txt) := envSplit_none _ txt hat
  have e2 : commandSplit txt.length txt = ([(x ++ '{' :: ws, n, [])], s :: (k' ++ '}' :: r)) := by
    have hlen : (x ++ '{' :: ws).length < txt.length := by rw [e0]; simp
    generalize txt.length = L at hlen
    rw [e0]
    exact commandSplit_one hn hw hs hK _ L hX hlen
  have hcl : closing 1 (s :: (k' ++ '}' :: r)) = some (s :: k', r) := by
    rw [← List.cons_append]
    refine closing_balanced (s :: k') 1 (le_refl _) ?_ ?_
    · intro p hp
      have := hb.2 p hp
      omega
    · have := hb.1
      omega
  have hbr : ¬ (1 : Int) + braces (s :: (k' ++ '}' :: r)) > 1 := by
    have h := hb.1
    have : braces (s :: (k' ++ '}' :: r)) = ((s :: k').count '{' : Int) + r.count '{' - ((s :: k').count '}' + 1 + r.count '}') := by
      unfold braces
      rw [← List.cons_append, List.count_append, List.count_append, List.count_cons (a := '}') (b := '}'),
        List.count_cons (a := '{') (b := '}')]
      simp
      omega
    omega
  have hop : opensBrace (x ++ '{' :: ws) = true := by
    unfold opensBrace
    rw [List.reverse_append, List.reverse_cons, List.append_assoc,
      List.dropWhile_append_of_pos (fun c hc => hws c (by simpa using hc))]
    rfl
  have hkids : ∀ f, encChildren (parse (f + 1)) [.str (s :: k')] = .ok (linesOf (s :: k')) := by
    intro f
    simp only [encChildren, parse_text f (s :: k') hbs.2.1 hds.2.1, List.append_nil]
  obtain ⟨L, hL⟩ : ∃ L, txt.length = L + 1 := by
    rw [e0]; exact ⟨(x ++ '{' :: ws).length + (n ++ s :: (k' ++ '}' :: r)).length, by simp; omega⟩
  unfold toNodes
  rw [hL]
  unfold parse
  rw [hL] at e1 e2
  simp only [hL, e1, firstItems, e2, chunkItems, mkArgs, if_true]
  have hlr : fixLeftRight (parse (L + 1)) [.str (x ++ '{' :: ws), .cmd n [] [], .str (s :: (k' ++ '}' :: r))] =
      .ok [.str (x ++ '{' :: ws), .cmd n [] [], .str (s :: (k' ++ '}' :: r))] := by
    simp only [fixLeftRight, leftRight, hs, if_true, ne_eq, not_true_eq_false, and_false, if_false, ite_self]
  have hstep : encStep (parse (L + 1)) 1 [.str (x ++ '{' :: ws), .cmd n [] [], .str (s :: (k' ++ '}' :: r))] [] =
      .ok ([.str x, .node (.enc ws (.cmd n []) (linesOf (s :: k'))), .str r], []) := by
    simp only [encStep, Nat.sub_self, List.getElem?_cons_zero, List.getElem?_cons_succ, Option.bind_some, asCommand,
      Nat.reduceAdd, hop, startsSpace, hs, Bool.and_self, if_true, List.drop_succ_cons, List.drop_zero, encSearch,
      if_neg hbr, hcl, List.nil_append, hkids, rfind_brace hws, Option.getD_some]
    simp
  simp only [hlr, List.length_cons, List.length_nil, Nat.zero_add, Nat.reduceAdd, Nat.reduceSub, encLoop, hstep, deleteAll, finish, linesOf, List.append_nil]

/-- Non-vacuity: a declaration with braces in it, white space after the brace, and lines. -/
example : toNodes "a\n{ \\bf very {big} words} and {so} on".toList =
    .ok [.text "a".toList, .newline, .text [],
      .enc [' '] (.cmd "bf".toList []) [.text " very {big} words".toList], .text " and {so} on".toList] :=
  declaration_content "a\n".toList [' '] "bf".toList " very {big} words".toList " and {so} on".toList
    (by simp [Spaces]; decide) (by decide) (by decide) ⟨' ', _, rfl, by decide⟩
    ⟨by decide, by
      intro p hp
      have : ∀ i < 18, ((" very {big} words".toList.take i).count '}') ≤ ((" very {big} words".toList.take i).count '{') := by decide
      rw [List.prefix_iff_eq_take] at hp
      rw [hp]
      by_cases hl : p.length < 18
      · exact this _ hl
      · rw [List.take_of_length_le (by simp; omega)]; decide⟩
    (by decide) (by decide)

end Verif.TeX
