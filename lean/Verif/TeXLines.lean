import Verif.TeXProps

/-!
# The texts of a parsed TeX document are single lines (C38)
-/

namespace Verif.TeX

mutual
/-- No text node and no command with its arguments, at any depth, contains a line end. -/
def OneLine : Node → Prop
  | .text t => '\n' ∉ t
  | .newline => True
  | .env _ cs => OneLineL cs
  | .math _ cs => OneLineL cs
  | .cmd n args => '\n' ∉ print (.cmd n args)
  | .trailing n c => '\n' ∉ print (.trailing n c)
  | .enc _ c cs => OneLine c ∧ OneLineL cs
def OneLineL : List Node → Prop
  | [] => True
  | n :: ns => OneLine n ∧ OneLineL ns
end

theorem oneLineL_iff (ns : List Node) : OneLineL ns ↔ ∀ n ∈ ns, OneLine n := by
  induction ns with
  | nil => constructor
           · intro _ m hm; simp at hm
           · intro _; trivial
  | cons n ns ih =>
    constructor
    · rintro ⟨h1, h2⟩ m hm
      rcases List.mem_cons.1 hm with rfl | hm
      · exact h1
      · exact ih.1 h2 m hm
    · intro h
      exact ⟨h n (by simp), ih.2 fun m hm => h m (by simp [hm])⟩

/-- The nodes and commands among the items are fine. -/
def ItemOk : Item → Prop
  | .str _ => True
  | .cmd n args o => '\n' ∉ o ∧ OneLine (.cmd n args)
  | .node n => OneLine n

def ItemsOk (l : List Item) : Prop := ∀ it ∈ l, ItemOk it

theorem ItemsOk.append {a b : List Item} (ha : ItemsOk a) (hb : ItemsOk b) : ItemsOk (a ++ b) := by
  intro n hn
  rcases List.mem_append.1 hn with h | h
  · exact ha n h
  · exact hb n h

theorem upTo_line (c : Char) : ∀ (l a r : Str), upTo c l = some (a, r) → '\n' ∉ a := by
  intro l
  induction l with
  | nil => intro a r h; simp [upTo] at h
  | cons d l ih =>
    intro a r h
    unfold upTo at h
    split_ifs at h with h1 h2
    · simp only [Option.some.injEq, Prod.mk.injEq] at h; simp [← h.1]
    · rw [Option.map_eq_some_iff] at h
      obtain ⟨p, hp, he⟩ := h
      simp only [Prod.mk.injEq] at he
      rw [← he.1]
      simp only [List.mem_cons, not_or]
      exact ⟨fun h => h2 h.symm, ih p.1 p.2 hp⟩

theorem group_line (l g r : Str) (h : group l = some (g, r)) : '\n' ∉ g := by
  cases l with
  | nil => simp [group] at h
  | cons c l =>
    simp only [group] at h
    split_ifs at h with h1 h2
    all_goals
      rw [Option.map_eq_some_iff] at h
      obtain ⟨p, hp, he⟩ := h
      simp only [Prod.mk.injEq] at he
      rw [← he.1]
      have := upTo_line _ _ _ _ hp
      simp [this]

theorem groups_line : ∀ (f : Nat) (l : Str), '\n' ∉ (groups f l).1 := by
  intro f
  induction f with
  | zero => intro l; simp [groups]
  | succ f ih =>
    intro l
    unfold groups
    cases hg : group l with
    | none => simp
    | some p =>
      obtain ⟨g, r⟩ := p
      simp only [List.mem_append, not_or]
      exact ⟨group_line _ _ _ hg, ih r⟩

theorem argsAt_line (l : Str) (p : Str × Str) (h : argsAt l = some p) : '\n' ∉ p.1 := by
  unfold argsAt at h
  split at h
  · simp only [Option.some.injEq] at h; rw [← h]; exact groups_line _ _
  · split at h
    · split_ifs at h; simp only [Option.some.injEq] at h; simp [← h]
    · cases h

theorem nameEnd_line (n l : Str) (hn : '\n' ∉ n) (p : Str × Str × Str) (h : nameEnd n l = some p) : '\n' ∉ p.1 ∧ '\n' ∉ p.2.1 := by
  have aux : ∀ l, (argsAt l).map (fun p => (n, p)) = some p → '\n' ∉ p.1 ∧ '\n' ∉ p.2.1 := by
    intro l h
    rw [Option.map_eq_some_iff] at h
    obtain ⟨q, hq, rfl⟩ := h
    exact ⟨hn, argsAt_line _ _ hq⟩
  unfold nameEnd at h
  split at h
  · split at h
    · rename_i q hq
      simp only [Option.some.injEq] at h
      subst h
      exact ⟨by simp [hn], argsAt_line _ _ hq⟩
    · exact aux _ h
  · exact aux _ h

theorem nameLoop_line : ∀ (l n : Str), '\n' ∉ n → ∀ p, nameLoop n l = some p → '\n' ∉ p.1 ∧ '\n' ∉ p.2.1 := by
  intro l
  induction l with
  | nil => intro n hn p h; exact nameEnd_line _ _ hn p h
  | cons c l ih =>
    intro n hn p h
    unfold nameLoop at h
    split at h
    · rename_i q hq
      simp only [Option.some.injEq] at h
      subst h
      exact nameEnd_line _ _ hn _ hq
    · split_ifs at h with hc
      exact ih _ (by simp [hn]; exact fun h => hc h.symm) p h

theorem command_line (l : Str) (p : Str × Str × Str) (h : command l = some p) : '\n' ∉ p.1 ∧ '\n' ∉ p.2.1 := by
  unfold command at h
  split at h
  · rename_i c l
    split_ifs at h with hc
    refine nameLoop_line l [c] ?_ p h
    simp only [List.mem_singleton]
    rintro rfl
    revert hc; decide
  · cases h

theorem commandSplit_line : ∀ (f : Nat) (l : Str), ∀ q ∈ (commandSplit f l).1, '\n' ∉ q.2.1 ∧ '\n' ∉ q.2.2 := by
  intro f
  induction f with
  | zero => intro l q hq; simp [commandSplit] at hq
  | succ f ih =>
    intro l q hq
    unfold commandSplit at hq
    cases hc : command l with
    | some p =>
      obtain ⟨n, a, r⟩ := p
      rw [hc] at hq
      simp only [List.mem_cons] at hq
      rcases hq with rfl | hq
      · exact command_line l _ hc
      · exact ih r q hq
    | none =>
      rw [hc] at hq
      cases l with
      | nil => simp at hq
      | cons c l =>
        have := ih l
        simp only at hq
        split at hq
        · simp at hq
        · rename_i t x ps e he
          rw [he] at this
          rcases List.mem_cons.1 hq with rfl | hq
          · exact this (t, x) (by simp)
          · exact this q (by simp [hq])

theorem argSplit_line : ∀ (l : Str), '\n' ∉ l → ∀ s ∈ argSplit l, '\n' ∉ s := by
  intro l
  induction l with
  | nil => intro _ s hs; simp [argSplit] at hs; simp [hs]
  | cons c l ih =>
    intro hl s hs
    simp only [List.mem_cons, not_or] at hl
    have ih := ih hl.2
    unfold argSplit at hs
    split_ifs at hs
    · rcases List.mem_cons.1 hs with rfl | hs
      · simp
      · exact ih s hs
    · split at hs
      · simp at hs; subst hs; simpa using hl.1
      · rename_i p ps he
        rw [he] at ih
        rcases List.mem_cons.1 hs with rfl | hs
        · simp only [List.mem_cons, not_or]; exact ⟨hl.1, ih p (by simp)⟩
        · exact ih s (by simp [hs])

theorem mkArgL_line : ∀ (l : List Str) (as : List Arg), (∀ s ∈ l, '\n' ∉ s) → mkArgL l = .ok as → ∀ a ∈ as, '\n' ∉ printArg a := by
  intro l
  induction l with
  | nil => intro as _ h a ha; simp only [mkArgL, Except.ok.injEq] at h; subst h; cases ha
  | cons s l ih =>
    intro as hl h a ha
    simp only [mkArgL] at h
    split at h
    · cases h
    · rename_i x hx
      split at h
      · cases h
      · rename_i xs hxs
        simp only [Except.ok.injEq] at h
        subst h
        rcases List.mem_cons.1 ha with rfl | ha
        · have hs := hl s (by simp)
          cases s with
          | nil => simp [mkArg] at hx
          | cons c t =>
            simp only [List.mem_cons, not_or] at hs
            simp only [mkArg] at hx
            split_ifs at hx <;> simp only [Except.ok.injEq] at hx <;> subst hx <;> simp [printArg, hs.2]
        · exact ih xs (fun s hs => hl s (by simp [hs])) hxs a ha

theorem mkArgs_line (s : Str) (as : List Arg) (hs : '\n' ∉ s) (h : mkArgs s = .ok as) : ∀ a ∈ as, '\n' ∉ printArg a := by
  unfold mkArgs at h
  split_ifs at h with h1
  · simp only [Except.ok.injEq] at h; subst h; intro a ha; cases ha
  · simp only at h
    split_ifs at h
    exact mkArgL_line _ _ (fun t ht => argSplit_line s hs t (List.dropLast_subset _ ht)) h

theorem cmd_line {n : Str} {args : List Arg} (hn : '\n' ∉ n) (ha : ∀ a ∈ args, '\n' ∉ printArg a) : OneLine (.cmd n args) := by
  show '\n' ∉ '\\' :: n ++ (args.map printArg).flatten
  simp only [List.cons_append, List.mem_cons, List.mem_append, List.mem_flatten, List.mem_map, not_or]
  refine ⟨by decide, hn, ?_⟩
  rintro ⟨l, ⟨a, ha', rfl⟩, hl⟩
  exact ha a ha' hl

theorem cmd_name {n : Str} {args : List Arg} (h : OneLine (.cmd n args)) : '\n' ∉ n := by
  intro hn
  apply h
  show '\n' ∈ '\\' :: n ++ (args.map printArg).flatten
  simp [hn]

theorem trailing_line {n : Str} {c : Char} (hn : '\n' ∉ n) (hc : c ≠ '\n') : OneLine (.trailing n c) := by
  show '\n' ∉ '\\' :: n ++ [c]
  simp [hn, hc.symm]

theorem chunk_ok : ∀ (ps : List (Str × Str × Str)) (e : Str) (l : List Item), (∀ q ∈ ps, '\n' ∉ q.2.1 ∧ '\n' ∉ q.2.2) →
    chunkItems ps e = .ok l → ItemsOk l := by
  intro ps
  induction ps with
  | nil =>
    intro e l _ h
    simp only [chunkItems, Except.ok.injEq] at h
    subst h
    intro n hn; simp at hn; subst hn; trivial
  | cons q ps ih =>
    intro e l hps h
    obtain ⟨t, n, a⟩ := q
    simp only [chunkItems] at h
    split at h
    · cases h
    · rename_i args hargs
      split at h
      · cases h
      · rename_i l' hl
        simp only [Except.ok.injEq] at h
        subst h
        obtain ⟨hn, ha⟩ := hps (t, n, a) (by simp)
        intro m hm
        rcases List.mem_cons.1 hm with rfl | hm
        · trivial
        rcases List.mem_cons.1 hm with rfl | hm
        · exact ⟨ha, cmd_line hn (mkArgs_line a args ha hargs)⟩
        exact ih e l' (fun q hq => hps q (by simp [hq])) hl m hm

theorem match_ok {parse : Str → Except Err (List Node)} (hp : ∀ t ns, parse t = .ok ns → OneLineL ns) {m : Match} {n : Node}
    (h : matchNode parse m = .ok n) : OneLine n := by
  cases m with
  | env s =>
    simp only [matchNode] at h
    split at h
    · cases h
    · split at h
      · cases h
      · rename_i cs hc
        simp only [Except.ok.injEq] at h
        subst h
        exact hp _ _ hc
  | math s =>
    simp only [matchNode] at h
    split at h
    · cases h
    · split at h
      · cases h
      · rename_i cs hc
        simp only [Except.ok.injEq] at h
        subst h
        exact hp _ _ hc

theorem first_ok {parse : Str → Except Err (List Node)} (hp : ∀ t ns, parse t = .ok ns → OneLineL ns) :
    ∀ (ps : List (Str × Match)) (e : Str) (l : List Item), firstItems parse ps e = .ok l → ItemsOk l := by
  intro ps
  induction ps with
  | nil => intro e l h; exact chunk_ok _ _ _ (commandSplit_line _ _) h
  | cons q ps ih =>
    intro e l h
    obtain ⟨t, m⟩ := q
    simp only [firstItems] at h
    split at h
    · cases h
    · rename_i l1 h1
      split at h
      · cases h
      · rename_i n h2
        split at h
        · cases h
        · rename_i r h3
          simp only [Except.ok.injEq] at h
          subst h
          apply ItemsOk.append (chunk_ok _ _ _ (commandSplit_line _ _) h1)
          intro k hk
          rcases List.mem_cons.1 hk with hk | hk
          · cases hk; exact match_ok hp h2
          · exact ih e r h3 k hk

theorem leftRight_ok {parse : Str → Except Err (List Node)} (hp : ∀ t ns, parse t = .ok ns → OneLineL ns) {it : Item} {tail l : List Item}
    (h : leftRight parse it tail = .ok l) (hit : ItemsOk [it]) (ht : ItemsOk tail) : ItemsOk l := by
  have hboth : ItemsOk (it :: tail) := ItemsOk.append (a := [it]) hit ht
  unfold leftRight at h
  split at h
  · split_ifs at h with h1 h2
    · split at h
      · cases h
      · split at h
        · cases h
        · rename_i ns hns
          simp only [Except.ok.injEq] at h
          subst h
          intro k hk
          simp only [List.cons_append, List.mem_cons, Item.node.injEq, List.mem_append, List.mem_map] at hk
          rcases hk with rfl | ⟨n, hn, rfl⟩ | hk
          · have hc := hit _ (List.mem_singleton.2 rfl)
            exact trailing_line (cmd_name hc.2) (fun h => hc.1 (by simp [h]))
          · exact (oneLineL_iff ns).1 (hp _ _ hns) _ hn
          · exact ht k hk
    · split at h
      · cases h
      · rename_i c t tl
        have htl : ItemsOk tl := fun k hk => ht k (by simp [hk])
        by_cases h3 : isSpace c = true
        · rw [if_pos h3] at h
          simp only [Except.ok.injEq] at h; subst h; exact hboth
        · rw [if_neg h3] at h
          simp only [Except.ok.injEq] at h
          subst h
          intro k hk
          rcases List.mem_cons.1 hk with hk | hk
          · cases hk
            have hc := hit _ (List.mem_singleton.2 rfl)
            refine trailing_line (cmd_name hc.2) ?_
            rintro rfl
            exact h3 (by decide)
          · by_cases ht0 : t = []
            · rw [if_pos ht0] at hk; exact htl k hk
            · rw [if_neg ht0] at hk
              rcases List.mem_cons.1 hk with rfl | hk
              · trivial
              · exact htl k hk
      · simp only [Except.ok.injEq] at h; subst h; exact hboth
    · simp only [Except.ok.injEq] at h; subst h; exact hboth
  · simp only [Except.ok.injEq] at h; subst h; exact hboth

theorem fix_ok {parse : Str → Except Err (List Node)} (hp : ∀ t ns, parse t = .ok ns → OneLineL ns) :
    ∀ (items l : List Item), ItemsOk items → fixLeftRight parse items = .ok l → ItemsOk l := by
  intro items
  induction items with
  | nil =>
    intro l _ h
    simp only [fixLeftRight, Except.ok.injEq] at h
    subst h
    intro n hn; cases hn
  | cons it items ih =>
    intro l hi h
    simp only [fixLeftRight] at h
    split at h
    · cases h
    · rename_i tail ht
      exact leftRight_ok hp h (fun n hn => hi n (by simp at hn; simp [hn])) (ih tail (fun n hn => hi n (by simp [hn])) ht)

theorem children_ok {parse : Str → Except Err (List Node)} (hp : ∀ t ns, parse t = .ok ns → OneLineL ns) :
    ∀ (items : List Item) (ns : List Node), ItemsOk items → encChildren parse items = .ok ns → OneLineL ns := by
  intro items
  induction items with
  | nil =>
    intro ns _ h
    simp only [encChildren, Except.ok.injEq] at h
    subst h
    trivial
  | cons it items ih =>
    intro ns hi h
    have hi' : ItemsOk items := fun n hn => hi n (by simp [hn])
    cases it with
    | str s =>
      simp only [encChildren] at h
      split at h
      · cases h
      · rename_i a ha
        split at h
        · cases h
        · rename_i r hr
          simp only [Except.ok.injEq] at h
          subst h
          rw [oneLineL_iff]
          intro n hn
          rcases List.mem_append.1 hn with hn | hn
          · exact (oneLineL_iff _).1 (hp _ _ ha) n hn
          · exact (oneLineL_iff _).1 (ih r hi' hr) n hn
    | cmd n args o =>
      simp only [encChildren] at h
      split at h
      · cases h
      · rename_i r hr
        simp only [Except.ok.injEq] at h
        subst h
        exact ⟨(hi (.cmd n args o) (by simp)).2, ih r hi' hr⟩
    | node n =>
      simp only [encChildren] at h
      split at h
      · cases h
      · rename_i r hr
        simp only [Except.ok.injEq] at h
        subst h
        exact ⟨hi (.node n) (by simp), ih r hi' hr⟩

theorem str_ok {s : Str} : ItemsOk [.str s] := by
  intro n hn
  rw [List.mem_singleton.1 hn]
  trivial

theorem search_ok : ∀ (items : List Item) (nb : Int) (content : List Item) (del : List Nat) (j : Nat), ItemsOk items → ItemsOk content →
    match (encSearch nb content del j items).1 with
    | .closed c _ _ => ItemsOk c
    | .ranOut c => ItemsOk c
    | .unbalanced => True := by
  intro items
  induction items with
  | nil => intro nb content del j _ hc; exact hc
  | cons it items ih =>
    intro nb content del j hi hc
    have hi' : ItemsOk items := fun n hn => hi n (by simp [hn])
    have hc' : ItemsOk (content ++ [it]) := ItemsOk.append hc (fun n hn => hi n (by simp at hn; simp [hn]))
    cases it with
    | str s =>
      unfold encSearch
      split_ifs
      · exact ih _ _ _ _ hi' hc'
      · cases closing nb s with
        | none => trivial
        | some p => exact ItemsOk.append hc str_ok
    | cmd n args o => unfold encSearch; exact ih _ _ _ _ hi' hc'
    | node n => unfold encSearch; exact ih _ _ _ _ hi' hc'

theorem set_ok {items : List Item} {i : Nat} {it : Item} (h : ItemsOk items) (hit : ItemsOk [it]) : ItemsOk (items.set i it) := by
  intro n hn
  rcases List.mem_or_eq_of_mem_set hn with h1 | h1
  · exact h n h1
  · exact hit n (by simp [h1])

theorem asCommand_ok {it : Item} {c : Node} (hit : ItemOk it) (h : asCommand it = some c) : OneLine c := by
  cases it with
  | str s => simp [asCommand] at h
  | cmd n args o => simp only [asCommand, Option.some.injEq] at h; subst h; exact hit.2
  | node n =>
    cases n with
    | cmd n args => simp only [asCommand, Option.some.injEq] at h; subst h; exact hit
    | trailing n c => simp only [asCommand, Option.some.injEq] at h; subst h; exact hit
    | _ => simp [asCommand] at h

theorem step_ok {parse : Str → Except Err (List Node)} (hp : ∀ t ns, parse t = .ok ns → OneLineL ns) {i : Nat} {items l : List Item}
    {todel d : List Nat} (h : encStep parse i items todel = .ok (l, d)) (hi : ItemsOk items) : ItemsOk l := by
  unfold encStep at h
  split at h
  · rename_i pre c post _ hc _
    split_ifs at h
    · have hs := search_ok (items.drop (i + 1)) 1 [] [] (i + 1) (fun n hn => hi n (List.mem_of_mem_drop hn)) (fun n hn => by cases hn)
      have hcmd : OneLine c := by
        rw [Option.bind_eq_some_iff] at hc
        obtain ⟨it, him, hit⟩ := hc
        exact asCommand_ok (hi it (List.mem_of_getElem? him)) hit
      have build : ∀ (content items' : List Item), ItemsOk content → ItemsOk items' →
          (match encChildren parse content with
            | .error e => (.error e : Except Err (List Item × List Nat))
            | .ok cs =>
              let before := (rfindSub ['{'] pre).getD []
              let pad := pre.drop (before.length + 1)
              .ok ((items'.set (i - 1) (.str before)).set i (.node (.enc pad c cs)), todel ++ (encSearch 1 [] [] (i + 1) (items.drop (i + 1))).2)) =
            .ok (l, d) → ItemsOk l := by
        intro content items' h1 h2 h
        split at h
        · cases h
        · rename_i cs hcs
          simp only [Except.ok.injEq, Prod.mk.injEq] at h
          obtain ⟨rfl, _⟩ := h
          apply set_ok (set_ok h2 str_ok)
          intro n hn
          simp only [List.mem_singleton] at hn
          subst hn
          exact ⟨hcmd, children_ok hp _ _ h1 hcs⟩
      simp only at h
      cases hf : (encSearch 1 [] [] (i + 1) (items.drop (i + 1))).1 with
      | closed content j rest =>
        rw [hf] at hs h
        exact build content _ hs (set_ok hi str_ok) h
      | ranOut content =>
        rw [hf] at hs h
        exact build content _ hs hi h
      | unbalanced =>
        rw [hf] at h
        simp only [Except.ok.injEq, Prod.mk.injEq] at h
        obtain ⟨rfl, _⟩ := h
        exact hi
    · simp only [Except.ok.injEq, Prod.mk.injEq] at h
      obtain ⟨rfl, _⟩ := h
      exact hi
  · simp only [Except.ok.injEq, Prod.mk.injEq] at h
    obtain ⟨rfl, _⟩ := h
    exact hi

theorem loop_ok {parse : Str → Except Err (List Node)} (hp : ∀ t ns, parse t = .ok ns → OneLineL ns) (k : Nat) :
    ∀ (i : Nat) (items l : List Item) (todel d : List Nat), ItemsOk items → encLoop parse k i items todel = .ok (l, d) → ItemsOk l := by
  induction k with
  | zero =>
    intro i items l todel d hi h
    simp only [encLoop, Except.ok.injEq, Prod.mk.injEq] at h
    obtain ⟨rfl, _⟩ := h
    exact hi
  | succ k ih =>
    intro i items l todel d hi h
    simp only [encLoop] at h
    split at h
    · cases h
    · rename_i items' todel' hs
      exact ih _ _ _ _ _ (step_ok hp hs hi) h

theorem delete_ok : ∀ (d : List Nat) (items l : List Item), ItemsOk items → deleteAll items d = .ok l → ItemsOk l := by
  intro d
  induction d with
  | nil =>
    intro items l hi h
    simp only [deleteAll, Except.ok.injEq] at h
    subst h
    exact hi
  | cons i d ih =>
    intro items l hi h
    simp only [deleteAll] at h
    split at h
    · cases h
    · rename_i r hr
      split_ifs at h
      simp only [Except.ok.injEq] at h
      subst h
      intro n hn
      exact ih items r hi hr n (List.mem_of_mem_eraseIdx hn)

theorem splitLines_lines (s : Str) : ∀ t ∈ splitLines s, '\n' ∉ t := by
  induction s with
  | nil => intro t ht; simp [splitLines] at ht; simp [ht]
  | cons c s ih =>
    intro t ht
    unfold splitLines at ht
    split_ifs at ht with hc
    · rcases List.mem_cons.1 ht with rfl | ht
      · simp
      · exact ih t ht
    · cases hs : splitLines s with
      | nil => exact absurd hs (splitLines_ne s)
      | cons p ps =>
        rw [hs] at ht ih
        simp only at ht
        rcases List.mem_cons.1 ht with rfl | ht
        · have := ih p (by simp)
          simp only [List.mem_cons, not_or]
          exact ⟨fun h => hc h.symm, this⟩
        · exact ih t (by simp [ht])

theorem lineNodes_ok : ∀ (ts : List Str), (∀ t ∈ ts, '\n' ∉ t) → OneLineL (lineNodes ts)
  | [], _ => trivial
  | [t], h => ⟨h t (by simp), trivial⟩
  | t :: t' :: ts, h => ⟨h t (by simp), trivial, lineNodes_ok (t' :: ts) (fun x hx => h x (by simp [hx]))⟩

theorem finish_ok : ∀ (items : List Item), ItemsOk items → OneLineL (finish items) := by
  intro items
  induction items with
  | nil => intro _; trivial
  | cons it items ih =>
    intro hi
    have hi' := ih (fun n hn => hi n (by simp [hn]))
    cases it with
    | str s =>
      simp only [finish]
      rw [oneLineL_iff]
      intro n hn
      rcases List.mem_append.1 hn with hn | hn
      · exact (oneLineL_iff _).1 (lineNodes_ok _ (splitLines_lines s)) n hn
      · exact (oneLineL_iff _).1 hi' n hn
    | cmd n args o => exact ⟨(hi (.cmd n args o) (by simp)).2, hi'⟩
    | node n => exact ⟨hi (.node n) (by simp), hi'⟩

theorem parse_lines (f : Nat) : ∀ txt ns, parse f txt = .ok ns → OneLineL ns := by
  induction f with
  | zero => intro txt ns h; simp [parse] at h
  | succ f ih =>
    intro txt ns h
    unfold parse at h
    simp only at h
    split at h
    · cases h
    · rename_i items h1
      split at h
      · cases h
      · rename_i items' h2
        split at h
        · cases h
        · rename_i items'' todel h3
          split at h
          · cases h
          · rename_i r h4
            simp only [Except.ok.injEq] at h
            subst h
            exact finish_ok _ (delete_ok _ _ _ (loop_ok ih _ _ _ _ _ _ (fix_ok ih _ _ (first_ok ih _ _ _ h1) h2) h3) h4)

/-- C38: whatever the text is, every text node and every command with its arguments, at any depth of the result, is on a single line: line
ends are nodes of their own. -/
theorem text_single_line (txt : Str) (ns : List Node) (h : toNodes txt = .ok ns) : OneLineL ns := parse_lines _ _ _ h

example : ∃ ns, toNodes sample = .ok ns ∧ OneLineL ns :=
  let ⟨ns, h, _⟩ := roundtrip_plain sample sample_plain
  ⟨ns, h, text_single_line _ _ h⟩

end Verif.TeX
