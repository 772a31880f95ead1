import Verif.TeXProps

/-!
# Declarations in braces (C38): `{\bf very}` and the like

`TeXProps` proves that parsing and printing returns every text without the listed shapes; there any
`{\cmd` is excluded.  Here declarations in braces (publication.py 945-998, `EnclosedDeclaration`) are
allowed as well: all that is asked is that between the command of a declaration and the next command,
mathematics or end there are at most as many opening as closing braces.  (Otherwise the parser goes
wrong: see `nested_declaration_duplicated`, `unbalanced_declaration_loses_text`,
`open_declaration_closed`.)
-/

namespace Verif.TeX

/-! ## Specification -/

/-- The text of a command after its backslash: a name, perhaps a star, perhaps arguments in brackets;
or `left` or `right` with a delimiter. -/
def DeclName (m : Str) : Prop :=
  (∃ n star a, m = n ++ star ++ a ∧ n ≠ [] ∧ (∀ c ∈ n, isWord c = true) ∧ (star = [] ∨ star = ['*']) ∧
    Groups a) ∨
  ∃ c, m = "left".toList ++ [c] ∨ m = "right".toList ++ [c]

/-- No command (backslash and word character) begins in the text. -/
def NoCmd (v : Str) : Prop := ∀ w, isWord w = true → ¬ ['\\', w] <:+: v

/-- The text ends here, or a command or mathematics begins. -/
def Stops (z : Str) : Prop :=
  z = [] ∨ (∃ w z', z = '\\' :: w :: z' ∧ isWord w = true) ∨ ∃ z', z = '$' :: z'

/-- Declarations in braces, `{\cmd ...`: up to the next command, mathematics or end, braces are not
opened more often than closed.  (An unpaired `$` does not begin mathematics: there is no further `$`,
or only after the end of the environment.) -/
def DeclOk (t : Str) : Prop :=
  ∀ a ws m s v z, t = a ++ ('{' :: ws ++ '\\' :: m ++ s :: v) ++ z → Spaces ws → DeclName m →
    isSpace s = true → NoCmd v → Stops z →
    ('$' ∈ v → ∀ x y, z = x ++ '$' :: y → "\\end{".toList <:+: x) →
    v.count '{' ≤ v.count '}'

/-- The arguments in brackets directly after `\left` contain no declaration. -/
def LeftOk (t : Str) : Prop :=
  ∀ c g, Groups (c :: g) → ("\\left".toList ++ c :: g) <:+: t →
    ∀ ws w, Spaces ws → isWord w = true → ¬ ('{' :: ws ++ ['\\', w]) <:+: g

/-- Texts without the shapes that the parser of publication.py does not keep. -/
structure Tame (t : Str) : Prop where
  basic : Basic t
  dollars : DollarsOk t
  decl : DeclOk t
  left : LeftOk t

/-! ## The conditions for the inner texts -/

theorem LeftOk.infix {t s : Str} (h : LeftOk t) (hs : s <:+: t) : LeftOk s :=
  fun c g h1 h2 => h c g h1 (h2.trans hs)

theorem DeclName.head {m : Str} (h : DeclName m) : ∃ w m', m = w :: m' ∧ isWord w = true := by
  rcases h with ⟨n, star, a, rfl, hn, hw, _, _⟩ | ⟨c, rfl | rfl⟩
  · cases n with
    | nil => exact absurd rfl hn
    | cons w n => exact ⟨w, n ++ star ++ a, by simp, hw w (by simp)⟩
  · exact ⟨'l', _, rfl, by decide⟩
  · exact ⟨'r', _, rfl, by decide⟩

/-- A text without `{\cmd` at all. -/
theorem declOk_of_none {t : Str} (h : ∀ ws w, Spaces ws → isWord w = true → ¬ ('{' :: ws ++ ['\\', w]) <:+: t) :
    DeclOk t := by
  intro a ws m s v z e hws hm _ _ _ _
  exfalso
  obtain ⟨w, m', rfl, hw⟩ := hm.head
  exact h ws w hws hw ⟨a, m' ++ s :: v ++ z, by rw [e]; simp⟩

theorem prefix_before_dollar {p q x y : Str} (hp : '$' ∉ p) (h : p ++ q = x ++ '$' :: y) : p <+: x := by
  rw [List.append_eq_append_iff] at h
  rcases h with ⟨d, rfl, _⟩ | ⟨d, rfl, h2⟩
  · exact List.prefix_append _ _
  · cases d with
    | nil => simp
    | cons c d =>
      simp only [List.cons_append, List.cons.injEq] at h2
      obtain ⟨rfl, _⟩ := h2
      exact absurd (by simp) hp

theorem DeclOk.inner {txt t : Str} (h : DeclOk txt) (hl : LeftOk txt) (hi : Inner txt t) : DeclOk t := by
  cases hi with
  | env a N b e =>
    intro a' ws m s v z et hws hm hs hv hz hd
    refine h (a ++ "\\begin{".toList ++ N ++ ['}'] ++ a') ws m s v (z ++ endTag N ++ b) (by rw [e, et]; simp)
      hws hm hs hv ?_ ?_
    · rcases hz with rfl | ⟨w, z', rfl, hw⟩ | ⟨z', rfl⟩
      · exact .inr (.inl ⟨'e', "nd{".toList ++ N ++ ['}'] ++ b, by simp [endTag], by decide⟩)
      · exact .inr (.inl ⟨w, z' ++ endTag N ++ b, by simp, hw⟩)
      · exact .inr (.inr ⟨z' ++ endTag N ++ b, by simp⟩)
    · intro hdv x y hxy
      rw [List.append_assoc] at hxy
      have h5 : ∀ x' y', endTag N ++ b = x' ++ '$' :: y' → "\\end{".toList <:+: x' := by
        intro x' y' h5
        have h6 : "\\end{".toList ++ (N ++ ['}'] ++ b) = x' ++ '$' :: y' := by rw [← h5]; simp [endTag]
        exact (prefix_before_dollar (by decide) h6).isInfix
      rw [List.append_eq_append_iff] at hxy
      rcases hxy with ⟨d, rfl, h2⟩ | ⟨d, h1, h2⟩
      · exact (h5 d y h2).trans (List.suffix_append z d).isInfix
      · cases d with
        | nil =>
          have := h5 [] y (by simpa using h2.symm)
          exact absurd this (by simp)
        | cons c d =>
          simp only [List.cons_append, List.cons.injEq] at h2
          obtain ⟨rfl, _⟩ := h2
          exact hd hdv x d h1
  | math a b hdt e =>
    intro a' ws m s v z et hws hm hs hv hz hd
    have hdv : '$' ∉ v := fun hm => hdt (by rw [et]; simp [hm])
    refine h (a ++ '$' :: a') ws m s v (z ++ '$' :: b) (by rw [e, et]; simp) hws hm hs hv ?_
      (fun h => absurd h hdv)
    rcases hz with rfl | ⟨w, z', rfl, hw⟩ | ⟨z', rfl⟩
    · exact .inr (.inr ⟨b, rfl⟩)
    · exact .inr (.inl ⟨w, z' ++ '$' :: b, by simp, hw⟩)
    · exact .inr (.inr ⟨z' ++ '$' :: b, by simp⟩)
  | left c hg hc => exact declOk_of_none (hl c t hg hc)

/-! ## The strings among the items -/

/-- A `$` in a chunk of text is the last one of the whole text. -/
def DollarLast (t z : Str) : Prop := ∀ a b, t = a ++ '$' :: b → '$' ∉ b ++ z

theorem DollarLast.suffix {a t z : Str} (h : DollarLast (a ++ t) z) : DollarLast t z := by
  intro x y e
  exact h (a ++ x) y (by rw [e]; simp)

theorem dollarLast_nil (z : Str) : DollarLast [] z := by intro a b e; simp at e

/-- A string of the list and the text after it: commands are found except at the very end, and what
follows is a command, mathematics or nothing. -/
structure StrOk (s z : Str) : Prop where
  cmds : ∀ a w b, s = a ++ '\\' :: w :: b → isWord w = true → ∀ c ∈ b, isWord c = true
  stops : Stops z
  dollar : DollarLast s z

theorem StrOk.tail {c : Char} {s z : Str} (h : StrOk (c :: s) z) : StrOk s z where
  cmds a w b e := h.cmds (c :: a) w b (by rw [e]; rfl)
  stops := h.stops
  dollar := DollarLast.suffix (a := [c]) h.dollar

/-- Shape of the list after the first stage; `z` is the text after it. -/
def Shape (z : Str) : List Item → Prop
  | [] => True
  | .str s :: l => StrOk s (itemsStr l ++ z) ∧ Shape z l
  | .cmd n args _ :: l => DeclName (n ++ (args.map printArg).flatten) ∧ Shape z l
  | .node n :: l => asCommand (.node n) = none ∧ Shape z l

theorem Shape.append {z : Str} {a b : List Item} (ha : Shape (itemsStr b ++ z) a) (hb : Shape z b) :
    Shape z (a ++ b) := by
  induction a with
  | nil => exact hb
  | cons x a ih =>
    cases x with
    | str s =>
      refine ⟨?_, ih ha.2⟩
      have := itemsStr_append a b
      change StrOk s (itemsStr (a ++ b) ++ z)
      rw [this, List.append_assoc]; exact ha.1
    | node n => exact ⟨ha.1, ih ha.2⟩
    | cmd n args orig => exact ⟨ha.1, ih ha.2⟩

/-- Shape of the list after the second stage; the flag says whether a string precedes. -/
def Shape2 : Bool → List Item → Prop
  | _, [] => True
  | _, .str s :: l => StrOk s (itemsStr l) ∧ Shape2 true l
  | b, it :: l => (b = true → ∀ c, asCommand it = some c → (∃ s l', l = .str s :: l') →
      ∃ m, itemStr it = '\\' :: m ∧ DeclName m) ∧ Shape2 false l

theorem Shape2.weaken {l : List Item} (h : Shape2 true l) : Shape2 false l := by
  cases l with
  | nil => trivial
  | cons it l =>
    cases it with
    | str s => exact h
    | cmd n a o => exact ⟨by simp, h.2⟩
    | node n => exact ⟨by simp, h.2⟩

theorem Shape2.any {l : List Item} (b : Bool) (h : Shape2 true l) : Shape2 b l := by
  cases b
  · exact h.weaken
  · exact h

theorem Shape2.nodes {ns : List Node} {l : List Item} (h : Shape2 true l) :
    Shape2 false (ns.map .node ++ l) := by
  induction ns with
  | nil => exact h.weaken
  | cons n ns ih => exact ⟨by simp, ih⟩

/-- Second stage. -/
theorem shape_left {parse : Str → Except Err (List Node)} {txt : Str}
    (hp : ParsesBelow parse txt) (items : List Item) (hg : Good txt items) (hs : Shape [] items) :
    ∀ its, fixLeftRight parse items = .ok its → Shape2 true its := by
  induction items with
  | nil =>
    intro its h
    simp only [fixLeftRight, Except.ok.injEq] at h
    subst h; trivial
  | cons it l ih =>
    intro its h
    have hgl : Good txt l := by
      cases it with
      | str s => exact hg
      | node n => exact hg
      | cmd n a o => exact hg.2
    have hsl : Shape [] l := by
      cases it with
      | str s => exact hs.2
      | node n => exact hs.2
      | cmd n a o => exact hs.2
    obtain ⟨tail, h1, h2, h3⟩ := left_spec hp l hgl
    have iht := ih hgl hsl tail h1
    simp only [fixLeftRight, h1] at h
    cases it with
    | str s =>
      simp only [leftRight, Except.ok.injEq] at h
      subst h
      exact ⟨by rw [h2]; simpa using hs.1, iht⟩
    | node n =>
      simp only [leftRight, Except.ok.injEq] at h
      subst h
      exact ⟨fun _ c hc => (by rw [hs.1] at hc; cases hc), iht.weaken⟩
    | cmd n args orig =>
      have keep : Shape2 true (.cmd n args orig :: tail) :=
        ⟨fun _ c _ _ => ⟨_, rfl, hs.1⟩, iht.weaken⟩
      obtain ⟨⟨g1, g2, g3, g4, g5, g6⟩, g7⟩ := hg
      simp only [leftRight] at h
      split_ifs at h with hla hlr
      · cases orig with
        | nil => cases h
        | cons c t =>
          simp only at h
          obtain ⟨ns, h4, h5⟩ := hp t (by simp at g4; omega)
            (List.IsInfix.trans ⟨'\\' :: n ++ [c], [], by simp⟩ g2.1.1) (.inl (fun h => g2.2 (h.trans ⟨[c], [], by simp⟩)))
            (.left c g2.1.2 (by have := g2.1.1; rw [hla.1] at this; exact this))
          rw [h4] at h
          simp only [Except.ok.injEq] at h
          subst h
          have ht : t ≠ [] := by
            rintro rfl
            have := g2.1.2
            generalize hx : [c] = x at this
            cases this with
            | nil => cases hx
            | curly u B => simp at hx
            | square u B => simp at hx
          refine ⟨?_, Shape2.nodes iht⟩
          rintro _ _ _ ⟨s, l', hl'⟩
          cases ns with
          | nil => simp [printL_nil] at h5; exact absurd h5 ht
          | cons m ns => simp at hl'
      · split at h
        · cases h
        · rename_i c t tl
          split_ifs at h with hsp ht
          · simp only [Except.ok.injEq] at h
            subst h; exact keep
          · simp only [Except.ok.injEq] at h
            subst h
            refine ⟨fun _ _ _ _ => ⟨n ++ [c], rfl, .inr ⟨c, ?_⟩⟩, iht.2.weaken⟩
            rcases hlr with rfl | rfl
            · exact .inl rfl
            · exact .inr rfl
          · simp only [Except.ok.injEq] at h
            subst h
            refine ⟨fun _ _ _ _ => ⟨n ++ [c], rfl, .inr ⟨c, ?_⟩⟩, iht.1.tail, iht.2⟩
            rcases hlr with rfl | rfl
            · exact .inl rfl
            · exact .inr rfl
        · simp only [Except.ok.injEq] at h
          subst h; exact keep
      · simp only [Except.ok.injEq] at h
        subst h; exact keep

/-! ## First stage -/

theorem nameLoop_word {l : Str} : ∀ {name n a r : Str}, (∀ c ∈ name, isWord c = true) →
    nameLoop name l = some (n, a, r) →
    ∃ nm star, n = nm ++ star ∧ (star = [] ∨ star = ['*']) ∧ name <+: nm ∧ ∀ c ∈ nm, isWord c = true := by
  have fin : ∀ {l name n a r : Str}, (∀ c ∈ name, isWord c = true) → nameEnd name l = some (n, a, r) →
      ∃ nm star, n = nm ++ star ∧ (star = [] ∨ star = ['*']) ∧ name <+: nm ∧ ∀ c ∈ nm, isWord c = true := by
    intro l name n a r hn h
    obtain ⟨h1, _, _⟩ := nameEnd_spec h
    rcases h1 with ⟨rfl, _⟩ | ⟨rfl, _⟩
    · exact ⟨n, [], by simp, .inl rfl, List.prefix_rfl, hn⟩
    · exact ⟨name, ['*'], rfl, .inr rfl, List.prefix_rfl, hn⟩
  induction l with
  | nil => intro name n a r hn h; exact fin hn h
  | cons c l ih =>
    intro name n a r hn h
    unfold nameLoop at h
    cases he : nameEnd name (c :: l) with
    | some q =>
      rw [he] at h
      simp only [Option.some.injEq] at h
      subst h
      exact fin hn he
    | none =>
      rw [he] at h
      simp only at h
      split_ifs at h
      obtain ⟨nm, star, h1, h2, h3, h4⟩ := ih (name := name ++ [c]) (by
        intro x hx
        rcases List.mem_append.mp hx with hx | hx
        · exact hn x hx
        · rw [List.mem_singleton.mp hx]; exact nameEnd_none he) h
      exact ⟨nm, star, h1, h2, (List.prefix_append name [c]).trans h3, h4⟩

theorem nameLoop_none {l : Str} : ∀ {name : Str}, nameLoop name l = none → ∀ c ∈ l, isWord c = true := by
  induction l with
  | nil => intro name _; simp
  | cons c l ih =>
    intro name h
    unfold nameLoop at h
    cases he : nameEnd name (c :: l) with
    | some q => rw [he] at h; cases h
    | none =>
      rw [he] at h
      simp only at h
      have hw := nameEnd_none he
      rw [if_neg (by rintro rfl; exact absurd hw (by decide))] at h
      intro x hx
      rcases List.mem_cons.mp hx with rfl | hx
      · exact hw
      · exact ih h x hx

theorem command_declName {l n a r : Str} (h : command l = some (n, a, r)) : DeclName (n ++ a) := by
  have hg := (command_spec h).1.args
  unfold command at h
  split at h
  · rename_i c l'
    split_ifs at h with hw
    obtain ⟨nm, star, h1, h2, h3, h4⟩ := nameLoop_word (name := [c]) (by simpa using hw) h
    refine .inl ⟨nm, star, a, by rw [h1], ?_, h4, h2, hg⟩
    rintro rfl
    simpa using h3.length_le
  · cases h

/-- The text of the pieces. -/
def pieceCat : List (Str × Str × Str) → Str → Str
  | [], e => e
  | (t, n, a) :: ps, e => t ++ ('\\' :: n ++ a) ++ pieceCat ps e

def Pieces (z : Str) : List (Str × Str × Str) → Str → Prop
  | [], e => StrOk e z
  | (t, n, a) :: ps, e => StrOk t ('\\' :: n ++ a ++ pieceCat ps e ++ z) ∧ DeclName (n ++ a) ∧ Pieces z ps e

theorem strOk_cons {c : Char} {t z l x : Str} (hc : command (c :: l) = none) (hl : l = t ++ x)
    (hd : DollarLast (c :: t) z) (h : StrOk t z) : StrOk (c :: t) z where
  cmds a w b e hw := by
    cases a with
    | cons d a =>
      simp only [List.cons_append, List.cons.injEq] at e
      exact h.cmds a w b e.2 hw
    | nil =>
      simp only [List.nil_append, List.cons.injEq] at e
      obtain ⟨rfl, rfl⟩ := e
      rw [hl] at hc
      simp only [List.cons_append, command, hw, if_true] at hc
      intro y hy
      exact nameLoop_none hc y (by simp [hy])
  stops := h.stops
  dollar := hd

theorem commandSplit_pieces (z : Str) (hz : Stops z) (f : Nat) : ∀ t : Str, t.length ≤ f → DollarLast t z →
    pieceCat (commandSplit f t).1 (commandSplit f t).2 = t ∧
      Pieces z (commandSplit f t).1 (commandSplit f t).2 := by
  have nil : StrOk [] z := ⟨by simp, hz, dollarLast_nil z⟩
  induction f with
  | zero =>
    intro t ht _
    have : t = [] := List.length_eq_zero_iff.mp (by omega)
    subst this
    exact ⟨rfl, nil⟩
  | succ f ih =>
    intro t ht hd
    unfold commandSplit
    cases hc : command t with
    | some q =>
      obtain ⟨n, a, r⟩ := q
      obtain ⟨hcmd, _⟩ := command_spec hc
      have hdn := command_declName hc
      have hlen : r.length ≤ f := by
        have := congrArg List.length hcmd.eq
        simp at this
        omega
      obtain ⟨h1, h2⟩ := ih r hlen (by rw [hcmd.eq] at hd; exact hd.suffix)
      simp only
      refine ⟨?_, ⟨by simp, ?_, dollarLast_nil _⟩, hdn, h2⟩
      · simp only [pieceCat, h1, List.nil_append]; exact hcmd.eq.symm
      · obtain ⟨w, m', hm, hw⟩ := hdn.head
        exact .inr (.inl ⟨w, m' ++ (pieceCat (commandSplit f r).1 (commandSplit f r).2 ++ z), by
          rw [List.cons_append, hm]; simp, hw⟩)
    | none =>
      simp only
      cases t with
      | nil => exact ⟨rfl, nil⟩
      | cons c t =>
        obtain ⟨h1, h2⟩ := ih t (by simpa using ht) (DollarLast.suffix (a := [c]) hd)
        cases hq : commandSplit f t with
        | mk ps e =>
          rw [hq] at h1 h2
          cases ps with
          | nil =>
            simp only [pieceCat] at h1
            subst h1
            simp only [hq]
            refine ⟨rfl, strOk_cons hc (x := []) (by simp) hd h2⟩
          | cons q ps =>
            obtain ⟨t', n, a⟩ := q
            simp only [pieceCat] at h1
            simp only [hq]
            refine ⟨by simp only [pieceCat, List.cons_append] at h1 ⊢; rw [h1], ?_, h2.2.1, h2.2.2⟩
            refine strOk_cons hc (x := '\\' :: n ++ a ++ pieceCat ps e) (by rw [← h1]; simp) (fun x y hxy => ?_) h2.1
            have := hd x (y ++ ('\\' :: n ++ a ++ pieceCat ps e)) (by
              rw [← h1]
              have : c :: (t' ++ ('\\' :: n ++ a) ++ pieceCat ps e) = (c :: t') ++ ('\\' :: n ++ a ++ pieceCat ps e) := by simp
              rw [this, hxy]; simp)
            simpa using this

theorem chunk_shape (txt z : Str) (ps : List (Str × Str × Str)) (e : Str) (h : Pieces z ps e) : ∀ items,
    chunkItems ps e = .ok items → Good txt items → itemsStr items = pieceCat ps e ∧ Shape z items := by
  induction ps with
  | nil =>
    intro items hc _
    simp only [chunkItems, Except.ok.injEq] at hc
    subst hc
    exact ⟨by simp [itemsStr, itemStr, pieceCat], h, trivial⟩
  | cons q ps ih =>
    obtain ⟨t, n, a⟩ := q
    intro items hc hg
    simp only [chunkItems] at hc
    cases hm : mkArgs a with
    | error x => rw [hm] at hc; cases hc
    | ok args =>
      simp only [hm] at hc
      cases hk : chunkItems ps e with
      | error x => rw [hk] at hc; cases hc
      | ok l =>
        simp only [hk, Except.ok.injEq] at hc
        subst hc
        obtain ⟨⟨g1, _⟩, g7⟩ := hg
        obtain ⟨h1, h2⟩ := ih h.2.2 l hk g7
        refine ⟨?_, ?_, ?_, h2⟩
        · rw [itemsStr_cons, itemsStr_cons, h1]
          simp [itemStr, pieceCat, ← g1]
        · rw [itemsStr_cons, h1]
          simp only [itemStr, ← g1]
          exact h.1
        · rw [← g1]; exact h.2.1

/-- The chunks between environments and mathematics. -/
def Chunks : List (Str × Match) → Str → Prop
  | [], e => DollarLast e []
  | (t, m) :: ps, e => DollarLast t (m.str ++ envCat ps e) ∧ Chunks ps e

theorem upToDollar_none {l : Str} (h : upToDollar l = none) : '$' ∉ l := by
  intro hm
  induction l with
  | nil => simp at hm
  | cons c l ih =>
    unfold upToDollar at h
    split_ifs at h with hc
    rw [Option.map_eq_none_iff] at h
    rcases List.mem_cons.mp hm with e | hm
    · exact hc e.symm
    · exact ih h hm

theorem envAt_dollar {l : Str} (h : envAt ('$' :: l) = none) : '$' ∉ l := by
  unfold envAt at h
  rw [if_neg (by simp [List.isPrefixOf]), Option.map_eq_none_iff] at h
  cases l with
  | nil => simp
  | cons c l =>
    by_cases hc : c = '$'
    · subst hc; exact absurd h (mathAt_double l)
    · unfold mathAt at h
      simp only at h
      split at h
      · rename_i heq
        simp only [List.cons.injEq] at heq
        exact absurd heq.1 hc
      · rw [Option.map_eq_none_iff] at h
        exact upToDollar_none h

theorem dollarLast_cons {c : Char} {t z : Str} (he : envAt (c :: (t ++ z)) = none) (h : DollarLast t z) :
    DollarLast (c :: t) z := by
  intro a b e
  cases a with
  | cons d a =>
    simp only [List.cons_append, List.cons.injEq] at e
    exact h a b e.2
  | nil =>
    simp only [List.nil_append, List.cons.injEq] at e
    obtain ⟨rfl, rfl⟩ := e
    exact envAt_dollar he

theorem envSplit_chunks {txt : Str}
    (hat : ∀ l m r, l <:+: txt → DollarsOk l → envAt l = some (m, r) → l = m.str ++ r ∧ m.str ≠ [] ∧ DollarsOk r)
    (f : Nat) : ∀ l : Str, l.length ≤ f → l <:+: txt → DollarsOk l →
    Chunks (envSplit f l).1 (envSplit f l).2 := by
  have nil : Chunks [] [] := by intro a b e; simp at e
  induction f with
  | zero =>
    intro l hl _ _
    have : l = [] := List.length_eq_zero_iff.mp (by omega)
    subst this
    exact nil
  | succ f ih =>
    intro l hl hi hd
    unfold envSplit
    cases he : envAt l with
    | some q =>
      obtain ⟨m, r⟩ := q
      obtain ⟨h1, h2, hdr⟩ := hat l m r hi hd he
      have hr : r <:+: txt := List.IsInfix.trans ⟨m.str, [], by rw [h1]; simp⟩ hi
      have hrl : r.length ≤ f := by
        have := congrArg List.length h1
        have h3 : 0 < m.str.length := List.length_pos_iff.mpr h2
        simp at this
        omega
      exact ⟨by intro a b e; simp at e, ih r hrl hr hdr⟩
    | none =>
      simp only
      cases l with
      | nil => exact nil
      | cons c l =>
        have hli : l <:+: txt := List.IsInfix.trans ⟨[c], [], by simp⟩ hi
        have h3 := ih l (by simpa using hl) hli (hd.tail he)
        have h4 := (envSplit_spec hat f l (by simpa using hl) hli (hd.tail he)).1
        cases hq : envSplit f l with
        | mk ps e =>
          rw [hq] at h3 h4
          cases ps with
          | nil =>
            simp only [envCat] at h4
            subst h4
            simp only [hq]
            exact dollarLast_cons (by simpa using he) h3
          | cons q ps =>
            obtain ⟨t, m⟩ := q
            simp only [envCat] at h4
            simp only [hq]
            refine ⟨dollarLast_cons (by rw [← h4] at he; simpa using he) h3.1, h3.2⟩

theorem envAt_stops {l r x : Str} {m : Match} (h : envAt l = some (m, r)) (hl : l = m.str ++ r) (hm : m.str ≠ []) :
    Stops (m.str ++ x) := by
  unfold envAt at h
  split_ifs at h with hb
  · cases hn : envName [] (l.drop 7) with
    | none => rw [hn] at h; cases h
    | some q =>
      obtain ⟨N, C, r'⟩ := q
      rw [hn] at h
      simp only [Option.some.injEq, Prod.mk.injEq] at h
      obtain ⟨rfl, rfl⟩ := h
      exact .inr (.inl ⟨'b', _, by simp [Match.str]; rfl, by decide⟩)
  · rw [Option.map_eq_some_iff] at h
    obtain ⟨⟨s, r'⟩, h1, h2⟩ := h
    simp only [Prod.mk.injEq] at h2
    obtain ⟨rfl, rfl⟩ := h2
    unfold mathAt at h1
    split at h1
    · cases s with
      | nil => exact absurd rfl hm
      | cons d s =>
        simp only [Match.str, List.cons_append, List.cons.injEq] at hl
        exact .inr (.inr ⟨s ++ x, by rw [hl.1]; rfl⟩)
    · cases h1

theorem matchNode_kind {parse : Str → Except Err (List Node)} {m : Match} {n : Node}
    (h : matchNode parse m = .ok n) : asCommand (.node n) = none := by
  cases m with
  | env s =>
    simp only [matchNode] at h
    split at h
    · cases h
    · split at h
      · cases h
      · simp only [Except.ok.injEq] at h
        subst h; rfl
  | math s =>
    simp only [matchNode] at h
    split at h
    · cases h
    · split at h
      · cases h
      · simp only [Except.ok.injEq] at h
        subst h; rfl

theorem first_shape {parse : Str → Except Err (List Node)} {txt : Str} (hplain : Basic txt)
    (hp : ParsesBelow parse txt) (ps : List (Str × Match)) (e : Str) (hi : envCat ps e <:+: txt)
    (hm : ∀ tm ∈ ps, ∃ l' r', l' <:+: txt ∧ DollarsOk l' ∧ envAt l' = some (tm.2, r'))
    (hdc : ∀ tm ∈ ps, ¬ ['$', '$'] <:+: tm.1) (hde : ¬ ['$', '$'] <:+: e) (hch : Chunks ps e) :
    ∀ items, firstItems parse ps e = .ok items → Shape [] items := by
  induction ps with
  | nil =>
    intro items hf
    obtain ⟨s, its, h1, h2, h3, _⟩ := chunk_spec txt hplain e.length e (le_refl _) hi hde
    obtain ⟨h4, h5⟩ := commandSplit_pieces [] (.inl rfl) e.length e (le_refl _) hch
    simp only [firstItems] at hf
    rw [h1, Except.ok.injEq] at hf
    subst hf
    exact (chunk_shape txt [] _ _ h5 _ h1 h3).2
  | cons q ps ih =>
    obtain ⟨t, m⟩ := q
    intro items hf
    simp only [envCat] at hi
    have hti : t <:+: txt := List.IsInfix.trans ⟨[], m.str ++ envCat ps e, by simp⟩ hi
    obtain ⟨s, its, h1, h2, h3, _⟩ := chunk_spec txt hplain t.length t (le_refl _) hti (hdc (t, m) (by simp))
    obtain ⟨l', r', hl', hdl', he⟩ := hm (t, m) (by simp)
    obtain ⟨k1, k2, _, n, h4, h5⟩ := envAt_spec hplain hl' hdl' hp he
    simp only at h4 h5 k1 k2 he
    have hie : envCat ps e <:+: txt := List.IsInfix.trans ⟨t ++ m.str, [], by simp⟩ hi
    obtain ⟨its2, h6, h7, h8⟩ := first_spec hplain hp ps e hie (fun tm htm => hm tm (by simp [htm]))
      (fun tm htm => hdc tm (by simp [htm])) hde
    have hs2 := ih hie (fun tm htm => hm tm (by simp [htm])) (fun tm htm => hdc tm (by simp [htm])) hch.2 its2 h6
    obtain ⟨h9, h10⟩ := commandSplit_pieces (m.str ++ envCat ps e) (envAt_stops he k1 k2) t.length t (le_refl _) hch.1
    simp only [firstItems, h1, h4, h6, Except.ok.injEq] at hf
    subst hf
    refine Shape.append ?_ ⟨matchNode_kind h4, hs2⟩
    have := (chunk_shape txt _ _ _ h10 _ h1 h3).2
    rw [itemsStr_cons, h7]
    simpa [itemStr, h5] using this

/-! ## Third stage -/

theorem closing_spec {n : Int} {s k r : Str} (hn : 1 ≤ n) (h : closing n s = some (k, r)) :
    s = k ++ '}' :: r := by
  induction s generalizing n k r with
  | nil => simp [closing] at h
  | cons c s ih =>
    unfold closing at h
    simp only at h
    by_cases h1 : c = '{'
    · subst h1
      rw [if_pos rfl, if_neg (by omega), Option.map_eq_some_iff] at h
      obtain ⟨⟨k', r'⟩, h2, h3⟩ := h
      simp only [Prod.mk.injEq] at h3
      obtain ⟨rfl, rfl⟩ := h3
      rw [ih (by omega) h2]; rfl
    · rw [if_neg h1] at h
      by_cases h2 : c = '}'
      · subst h2
        rw [if_pos rfl] at h
        split_ifs at h with h3
        · simp only [Option.some.injEq, Prod.mk.injEq] at h
          obtain ⟨rfl, rfl⟩ := h
          rfl
        · rw [Option.map_eq_some_iff] at h
          obtain ⟨⟨k', r'⟩, h4, h5⟩ := h
          simp only [Prod.mk.injEq] at h5
          obtain ⟨rfl, rfl⟩ := h5
          rw [ih (by omega) h4]; rfl
      · rw [if_neg h2, if_neg (by omega), Option.map_eq_some_iff] at h
        obtain ⟨⟨k', r'⟩, h4, h5⟩ := h
        simp only [Prod.mk.injEq] at h5
        obtain ⟨rfl, rfl⟩ := h5
        rw [ih hn h4]; rfl

theorem asCommand_print {it : Item} {c : Node} (h : asCommand it = some c) : itemStr it = print c := by
  cases it with
  | str s => simp [asCommand] at h
  | cmd n args orig => simp only [asCommand, Option.some.injEq] at h; subst h; rfl
  | node n =>
    cases n <;> simp only [asCommand, Option.some.injEq, reduceCtorEq] at h
    · subst h; rfl
    · subst h; rfl

theorem rfind_brace {x ws : Str} (hws : Spaces ws) : rfindSub ['{'] (x ++ '{' :: ws) = some x := by
  apply rfindSub_some
  have : rfindSub ['{'] ws = none := by
    apply rfindSub_none (by simp)
    intro hi
    have := hws '{' (hi.subset (by simp))
    exact absurd this (by decide)
  simp [rfindSub, this]

/-- The declarations of a list of items are unproblematic; the contents of those found satisfy `P`. -/
def TriL (parse : Str → Except Err (List Node)) (P : Str → Prop) (L : List Item) : Prop :=
  ∀ A pre it c post B, L = A ++ .str pre :: it :: .str post :: B → asCommand it = some c →
    opensBrace pre = true → startsSpace post = true →
    braces post ≤ 0 ∧ ∀ k r, post = k ++ '}' :: r → P k ∧ ∃ ns, parse k = .ok ns ∧ printL ns = k

/-- What the third stage does: declarations `{ws\cmd k}` become nodes, the rest is kept. -/
inductive Enc (parse : Str → Except Err (List Node)) (P : Str → Prop) : List Item → List Item → Prop
  | nil : Enc parse P [] []
  | keep (it : Item) (L L' : List Item) : Enc parse P L L' → Enc parse P (it :: L) (it :: L')
  | decl (x ws k r : Str) (it : Item) (c : Node) (ns : List Node) (B L' : List Item) : Spaces ws →
      asCommand it = some c → P k → parse k = .ok ns → printL ns = k → Enc parse P (.str r :: B) L' →
      Enc parse P (.str (x ++ '{' :: ws) :: it :: .str (k ++ '}' :: r) :: B)
        (.str x :: .node (.enc ws c ns) :: L')

theorem Enc.refl {parse : Str → Except Err (List Node)} {P : Str → Prop} (L : List Item) : Enc parse P L L := by
  induction L with
  | nil => exact .nil
  | cons it L ih => exact .keep it L L ih

theorem Enc.node_head {parse : Str → Except Err (List Node)} {P : Str → Prop} {n : Node} {L out : List Item}
    (h : Enc parse P (.node n :: L) out) : ∃ out', out = .node n :: out' ∧ Enc parse P L out' := by
  cases h with
  | keep _ _ L' h => exact ⟨L', rfl, h⟩

theorem Enc.text {parse : Str → Except Err (List Node)} {P : Str → Prop} {L out : List Item}
    (h : Enc parse P L out) : itemsStr out = itemsStr L := by
  induction h with
  | nil => rfl
  | keep it L L' _ ih => rw [itemsStr_cons, itemsStr_cons, ih]
  | decl x ws k r it c ns B L' _ hc _ _ hk _ ih =>
    have e5 : print (.enc ws c ns) = '{' :: ws ++ print c ++ printL ns ++ ['}'] := rfl
    rw [itemsStr_cons] at ih
    rw [itemsStr_cons, itemsStr_cons, itemsStr_cons, itemsStr_cons, itemsStr_cons, ih, asCommand_print hc]
    change x ++ (print (.enc ws c ns) ++ (r ++ itemsStr B)) = (x ++ '{' :: ws) ++ (print c ++ ((k ++ '}' :: r) ++ itemsStr B))
    rw [e5, hk]
    simp only [List.append_assoc, List.cons_append, List.nil_append]

theorem TriL.tail {parse : Str → Except Err (List Node)} {P : Str → Prop} {x : Item} {L : List Item}
    (h : TriL parse P (x :: L)) : TriL parse P L := fun A pre it c post B e => h (x :: A) pre it c post B (by rw [e]; rfl)

theorem opensBrace_suffix {a s : Str} (h : opensBrace s = true) : opensBrace (a ++ s) = true := by
  obtain ⟨x, ws, rfl, hws⟩ := opensBrace_spec h
  unfold opensBrace
  rw [← List.append_assoc, List.reverse_append, List.reverse_cons, List.append_assoc,
    List.dropWhile_append_of_pos (fun c hc => hws c (by simpa using hc))]
  simp [List.dropWhile, show isSpace '{' = false by decide]

/-- A declaration that is not one for the parser. -/
theorem encLoop_short (parse : Str → Except Err (List Node)) (k : Nat) : ∀ (i : Nat) (items : List Item) (todel : List Nat),
    items.length ≤ i + 1 → encLoop parse k i items todel = .ok (items, todel) := by
  induction k with
  | zero => intro i items todel _; rfl
  | succ k ih =>
    intro i items todel h
    have hn : items[i + 1]? = none := List.getElem?_eq_none h
    have hs : encStep parse i items todel = .ok (items, todel) := by
      unfold encStep
      rw [hn]
      split
      · rename_i heq; cases heq
      · rfl
    unfold encLoop
    rw [hs]
    exact ih (i + 1) items todel (by omega)

theorem encStep_at (parse : Str → Except Err (List Node)) (P : Str → Prop) (A B : List Item) (a b d : Item)
    (h : TriL parse P (a :: b :: d :: B)) :
    encStep parse (A.length + 1) (A ++ a :: b :: d :: B) [] = .ok (A ++ a :: b :: d :: B, []) ∨
    ∃ x ws k r c ns, encStep parse (A.length + 1) (A ++ a :: b :: d :: B) [] =
        .ok (A ++ .str x :: .node (.enc ws c ns) :: .str r :: B, []) ∧
      a = .str (x ++ '{' :: ws) ∧ d = .str (k ++ '}' :: r) ∧ Spaces ws ∧ asCommand b = some c ∧ P k ∧
      parse k = .ok ns ∧ printL ns = k := by
  have g0 : (A ++ a :: b :: d :: B)[A.length + 1 - 1]? = some a := by simp
  have g1 : (A ++ a :: b :: d :: B)[A.length + 1]? = some b := by
    rw [List.getElem?_append_right (by omega)]; simp
  have g2 : (A ++ a :: b :: d :: B)[A.length + 1 + 1]? = some d := by
    rw [List.getElem?_append_right (by omega), show A.length + 1 + 1 - A.length = 2 by omega]; rfl
  have gd : (A ++ a :: b :: d :: B).drop (A.length + 1 + 1) = d :: B := by
    rw [List.drop_append, List.drop_of_length_le (by omega), show A.length + 1 + 1 - A.length = 2 by omega]; rfl
  unfold encStep
  rw [g0, g1, g2, gd]
  simp only [Option.bind_some]
  split
  · rename_i pre c post e1 e2 e3
    simp only [Option.some.injEq] at e1 e3
    subst e1 e3
    split_ifs with hcond
    · rw [Bool.and_eq_true] at hcond
      obtain ⟨hb, hk⟩ := h [] pre b c post B rfl e2 hcond.1 hcond.2
      obtain ⟨x, ws, rfl, hws⟩ := opensBrace_spec hcond.1
      have hs : encSearch 1 [] [] (A.length + 1 + 1) (.str post :: B) =
          (match closing 1 post with
            | some (k, rest) => (.closed [.str k] (A.length + 1 + 1) rest, [])
            | none => (.unbalanced, [])) := by
        unfold encSearch
        rw [if_neg (by omega)]
        cases closing 1 post with
        | none => rfl
        | some q => rfl
      rw [hs]
      cases hc : closing 1 post with
      | none => exact .inl (by simp)
      | some q =>
        obtain ⟨k, rest⟩ := q
        have hpost := closing_spec (le_refl 1) hc
        obtain ⟨hP, ns, h1, h2⟩ := hk k rest hpost
        refine .inr ⟨x, ws, k, rest, c, ns, ?_, rfl, by rw [hpost], hws, e2, hP, h1, h2⟩
        · simp only [encChildren, h1, rfind_brace hws, Option.getD_some]
          congr 2
          · rw [List.set_append_right _ _ (by omega), List.set_append_right _ _ (by omega),
              List.set_append_right _ _ (by omega)]
            have e4 : (x ++ '{' :: ws).drop (x.length + 1) = ws := by
              rw [← List.drop_drop, List.drop_left' rfl]; rfl
            simp only [e4, List.append_nil, show A.length + 1 + 1 - A.length = 2 by omega, show A.length + 1 - A.length = 1 by omega,
              show A.length + 1 - 1 - A.length = 0 by omega]
            rfl
    · exact .inl rfl
  · exact .inl rfl

theorem encLoop_spec (parse : Str → Except Err (List Node)) (P : Str → Prop) (k : Nat) : ∀ (A L : List Item), TriL parse P L →
    ∃ out, encLoop parse k (A.length + 1) (A ++ L) [] = .ok (A ++ out, []) ∧ Enc parse P L out := by
  induction k with
  | zero => intro A L _; exact ⟨L, rfl, Enc.refl L⟩
  | succ k ih =>
    intro A L h
    by_cases hl : L.length ≤ 2
    · exact ⟨L, encLoop_short parse _ _ _ _ (by simp; omega), Enc.refl L⟩
    · obtain ⟨a, b, d, B, rfl⟩ : ∃ a b d B, L = a :: b :: d :: B := by
        rcases L with _ | ⟨a, _ | ⟨b, _ | ⟨d, B⟩⟩⟩
        · simp at hl
        · simp at hl
        · simp at hl
        · exact ⟨a, b, d, B, rfl⟩
      unfold encLoop
      rcases encStep_at parse P A B a b d h with h1 | ⟨x, ws, q, r, c, ns, h1, rfl, rfl, h2, h3, h4, h5, h6⟩
      · rw [h1]
        obtain ⟨out, h5, h6⟩ := ih (A ++ [a]) (b :: d :: B) h.tail
        exact ⟨a :: out, by simpa using h5, .keep _ _ _ h6⟩
      · rw [h1]
        have ht : TriL parse P (.node (.enc ws c ns) :: .str r :: B) := by
          intro A' pre it c' post B' heq hc hop hsp
          cases A' with
          | nil => simp at heq
          | cons y A' =>
            simp only [List.cons_append, List.cons.injEq] at heq
            cases A' with
            | nil =>
              obtain ⟨_, heq⟩ := heq
              simp only [List.nil_append, List.cons.injEq, Item.str.injEq] at heq
              obtain ⟨rfl, rfl⟩ := heq
              refine h [.str (x ++ '{' :: ws), b] (q ++ '}' :: r) it c' post B' rfl hc ?_ hsp
              have := opensBrace_suffix (a := q ++ ['}']) hop
              simpa using this
            | cons y' A' =>
              obtain ⟨_, heq⟩ := heq
              simp only [List.cons_append, List.cons.injEq] at heq
              obtain ⟨_, rfl⟩ := heq
              exact h (.str (x ++ '{' :: ws) :: b :: .str (q ++ '}' :: r) :: A') pre it c' post B' rfl hc hop hsp
        obtain ⟨out, h7, h8⟩ := ih (A ++ [.str x]) (.node (.enc ws c ns) :: .str r :: B) ht
        obtain ⟨out', rfl, h9⟩ := h8.node_head
        exact ⟨.str x :: .node (.enc ws c ns) :: out', by simpa using h7, .decl x ws q r b c ns B out' h2 h3 h4 h5 h6 h9⟩

theorem shape2_triple {b : Bool} {A : List Item} {pre post : Str} {it : Item} {c : Node} {B : List Item}
    (h : Shape2 b (A ++ .str pre :: it :: .str post :: B)) (hc : asCommand it = some c) :
    (∃ m, itemStr it = '\\' :: m ∧ DeclName m) ∧ StrOk post (itemsStr B) := by
  induction A generalizing b with
  | nil =>
    cases it with
    | str s => simp [asCommand] at hc
    | cmd n args o => exact ⟨h.2.1 rfl c hc ⟨post, B, rfl⟩, h.2.2.1⟩
    | node n => exact ⟨h.2.1 rfl c hc ⟨post, B, rfl⟩, h.2.2.1⟩
  | cons x A ih =>
    cases x with
    | str s => exact ih h.2
    | cmd n args o => exact ih h.2
    | node n => exact ih h.2

theorem word_not_brace {c : Char} (h : isWord c = true) : c ≠ '{' ∧ c ≠ '}' ∧ c ≠ '\\' := by
  refine ⟨?_, ?_, ?_⟩ <;> rintro rfl <;> exact absurd h (by decide)

/-- A string among the items is free of commands, except perhaps at its end. -/
theorem StrOk.split {s z : Str} (h : StrOk s z) :
    ∃ v y, s = v ++ y ∧ NoCmd v ∧ Stops (y ++ z) ∧ y.count '{' = 0 ∧ y.count '}' = 0 ∧ (y = [] ∨ y.head? = some '\\') := by
  by_cases hc : ∃ a w b, s = a ++ '\\' :: w :: b ∧ isWord w = true
  · obtain ⟨a, w, b, rfl, hw⟩ := hc
    have hb := h.cmds a w b rfl hw
    refine ⟨a, '\\' :: w :: b, rfl, ?_, .inr (.inl ⟨w, b ++ z, rfl, hw⟩), ?_, ?_, .inr rfl⟩
    · rintro w' hw' ⟨a1, a2, rfl⟩
      have := h.cmds a1 w' (a2 ++ '\\' :: w :: b) (by simp) hw' '\\' (by simp)
      exact absurd this (by decide)
    · rw [List.count_eq_zero]
      intro hm
      rcases List.mem_cons.mp hm with hm | hm
      · exact absurd hm (by decide)
      rcases List.mem_cons.mp hm with hm | hm
      · exact (word_not_brace hw).1 hm.symm
      · exact (word_not_brace (hb _ hm)).1 rfl
    · rw [List.count_eq_zero]
      intro hm
      rcases List.mem_cons.mp hm with hm | hm
      · exact absurd hm (by decide)
      rcases List.mem_cons.mp hm with hm | hm
      · exact (word_not_brace hw).2.1 hm.symm
      · exact (word_not_brace (hb _ hm)).2.1 rfl
  · refine ⟨s, [], by simp, ?_, by simpa using h.stops, by simp, by simp, .inl rfl⟩
    rintro w hw ⟨a, b, e⟩
    exact hc ⟨a, w, b, by rw [← e]; simp, hw⟩

theorem tri_of_shape {txt : Str} {f : Nat} (ht : Tame txt)
    (hp : ∀ t : Str, t.length < txt.length → Tame t → ∃ ns, parse f t = .ok ns ∧ printL ns = t)
    (its : List Item) (hs : Shape2 true its) (htxt : itemsStr its = txt) :
    TriL (parse f) (fun k => k.length < txt.length ∧ k <:+: txt ∧ NoCmd k ∧ Tame k) its := by
  intro A pre it c post B e hc hop hsp
  subst e
  obtain ⟨⟨m, hm, hdn⟩, hstr⟩ := shape2_triple hs hc
  obtain ⟨x, ws, rfl, hws⟩ := opensBrace_spec hop
  have e1 : txt = (itemsStr A ++ x) ++ ('{' :: ws ++ '\\' :: m ++ post) ++ itemsStr B := by
    rw [← htxt]
    simp only [itemsStr_append, itemsStr_cons]
    rw [hm]
    simp [itemStr]
  refine ⟨?_, ?_⟩
  · obtain ⟨v, y, hv, h1, h2, h3, h4, h5⟩ := hstr.split
    cases v with
    | nil =>
      exfalso
      rw [hv, List.nil_append] at hsp
      rcases h5 with rfl | h5
      · simp [startsSpace] at hsp
      · cases y with
        | nil => cases h5
        | cons d y =>
          simp only [List.head?_cons, Option.some.injEq] at h5
          subst h5
          exact absurd hsp (by simp [startsSpace, isSpace])
    | cons s v =>
      have hss : isSpace s = true := by rw [hv] at hsp; simpa [startsSpace] using hsp
      have key := ht.decl (itemsStr A ++ x) ws m s v (y ++ itemsStr B) (by rw [e1, hv]; simp) hws hdn hss
        (fun w hw hi => h1 w hw (hi.trans ⟨[s], [], by simp⟩)) h2 (by
          intro hd x' y' hxy
          exfalso
          obtain ⟨p, q, hpq⟩ := List.append_of_mem hd
          have := hstr.dollar (s :: p) (q ++ y) (by rw [hv, hpq]; simp)
          apply this
          rw [List.append_assoc, hxy]
          simp)
      have hsb : s ≠ '{' ∧ s ≠ '}' := by
        constructor <;> rintro rfl <;> exact absurd hss (by decide)
      unfold braces
      rw [hv, List.count_append, List.count_append, h3, h4, List.count_cons_of_ne hsb.1, List.count_cons_of_ne hsb.2]
      omega
  · intro k r hk
    have hki : k <:+: txt := by
      rw [e1, hk]
      exact ⟨itemsStr A ++ x ++ ('{' :: ws ++ '\\' :: m), '}' :: r ++ itemsStr B, by simp⟩
    have hnc : NoCmd k := by
      rintro w hw ⟨a1, a2, rfl⟩
      have := hstr.cmds a1 w (a2 ++ '}' :: r) (by rw [hk]; simp) hw '}' (by simp)
      exact absurd this (by decide)
    have hlen : k.length < txt.length := by
      rw [e1, hk]
      simp only [List.length_append, List.length_cons]
      omega
    have htk : Tame k := by
      refine ⟨ht.basic.infix hki, .inl ?_, declOk_of_none ?_, ht.left.infix hki⟩
      rotate_left
      · intro ws' w _ hw hi
        exact hnc w hw (List.IsInfix.trans ⟨'{' :: ws', [], by simp⟩ hi)
      rintro ⟨a1, a2, ha⟩
      have := hstr.dollar a1 ('$' :: a2 ++ '}' :: r) (by rw [hk, ← ha]; simp)
      exact this (by simp)
    exact ⟨⟨hlen, hki, hnc, htk⟩, hp k hlen htk⟩

/-! ## The property -/

theorem parse_tame (f : Nat) : ∀ txt : Str, txt.length < f → Tame txt →
    ∃ ns, parse f txt = .ok ns ∧ printL ns = txt := by
  induction f with
  | zero => intro txt h; omega
  | succ f ih =>
    intro txt hlen ht
    have hp : ParsesBelow (parse f) txt := fun t hl hi hd hin =>
      ih t (by omega) ⟨ht.basic.infix hi, hd, ht.decl.inner ht.left hin, ht.left.infix hi⟩
    have hat : ∀ l m r, l <:+: txt → DollarsOk l → envAt l = some (m, r) → l = m.str ++ r ∧ m.str ≠ [] ∧ DollarsOk r :=
      fun l m r hi hd he => by
        obtain ⟨h1, h2, h3, _⟩ := envAt_spec ht.basic hi hd hp he
        exact ⟨h1, h2, h3⟩
    have hsplit := envSplit_spec hat txt.length txt (le_refl _) List.infix_rfl ht.dollars
    have hch := envSplit_chunks hat txt.length txt (le_refl _) List.infix_rfl ht.dollars
    obtain ⟨items, h1, h2, h3⟩ := first_spec ht.basic hp (envSplit txt.length txt).1
      (envSplit txt.length txt).2 (by rw [hsplit.1]) hsplit.2.1 hsplit.2.2.1 hsplit.2.2.2
    have hsh := first_shape ht.basic hp (envSplit txt.length txt).1
      (envSplit txt.length txt).2 (by rw [hsplit.1]) hsplit.2.1 hsplit.2.2.1 hsplit.2.2.2 hch items h1
    obtain ⟨its, h4, h5, _⟩ := left_spec hp items h3
    have hs2 := shape_left hp items h3 hsh its h4
    have htxt : itemsStr its = txt := by rw [h5, h2, hsplit.1]
    have htri := tri_of_shape (f := f) ht (fun t hl ht => ih t (by omega) ht) its hs2 htxt
    obtain ⟨out, h6, h7⟩ := encLoop_spec (parse f) _ (its.length - 2) [] its htri
    simp only [List.length_nil, Nat.zero_add, List.nil_append] at h6
    refine ⟨finish out, ?_, by rw [finish_spec, h7.text, htxt]⟩
    unfold parse
    simp only [h1, h4, h6, deleteAll]

/-- C38: for every text without the shapes that `Tame` rules out, parsing succeeds and printing the
nodes gives the text back. -/
theorem roundtrip (txt : Str) (h : Tame txt) : ∃ ns, toNodes txt = .ok ns ∧ printL ns = txt :=
  parse_tame _ txt (by omega) h

/-! ## A test for `Tame` -/

/-- The argument groups at the beginning of a text (fuel: its length). -/
def groupsOf : Nat → Str → Str
  | 0, _ => []
  | f + 1, c :: l =>
    if c = '{' then
      match findSub ['}'] l with
      | some (u, r) => '{' :: u ++ '}' :: groupsOf f r
      | none => []
    else if c = '[' then
      match findSub [']'] l with
      | some (u, r) => '[' :: u ++ ']' :: groupsOf f r
      | none => []
    else []
  | _ + 1, [] => []

theorem groupsOf_spec {a : Str} (h : Groups a) : ∀ (b : Str) (f : Nat), a.length ≤ f →
    ∃ f', groupsOf f (a ++ b) = a ++ groupsOf f' b := by
  induction h with
  | nil => intro b f _; exact ⟨f, rfl⟩
  | curly u B hu _ ih =>
    intro b f hf
    cases f with
    | zero => simp at hf
    | succ f =>
      obtain ⟨f', h1⟩ := ih b f (by simp at hf; omega)
      refine ⟨f', ?_⟩
      have e : '{' :: u ++ '}' :: B ++ b = '{' :: (u ++ '}' :: (B ++ b)) := by simp
      rw [e, groupsOf, if_pos rfl, findSub_char hu]
      simp [h1]
  | square u B hu _ ih =>
    intro b f hf
    cases f with
    | zero => simp at hf
    | succ f =>
      obtain ⟨f', h1⟩ := ih b f (by simp at hf; omega)
      refine ⟨f', ?_⟩
      have e : '[' :: u ++ ']' :: B ++ b = '[' :: (u ++ ']' :: (B ++ b)) := by simp
      rw [e, groupsOf, if_neg (by decide), if_pos rfl, findSub_char hu]
      simp [h1]

/-- Up to the next command, mathematics or end there are no more opening than closing braces. -/
def afterDecl (d : Int) : Str → Bool
  | [] => decide (d ≤ 0)
  | c :: l =>
    if c == '\\' && l.head?.any isWord then decide (d ≤ 0)
    else if c == '$' then decide (d ≤ 0) && afterDecl d l
    else afterDecl (d + (if c == '{' then 1 else if c == '}' then -1 else 0)) l

theorem afterDecl_sound (v z : Str) (hz : Stops z) : ∀ d : Int, afterDecl d (v ++ z) = true → NoCmd v →
    d + v.count '{' - v.count '}' ≤ 0 := by
  induction v with
  | nil =>
    intro d h _
    rcases hz with rfl | ⟨w, z', rfl, hw⟩ | ⟨z', rfl⟩
    · simpa [afterDecl] using h
    · simpa [afterDecl, hw] using h
    · rw [List.nil_append, afterDecl, if_neg (by simp), if_pos (by simp), Bool.and_eq_true] at h
      simpa using h.1
  | cons c v ih =>
    intro d h hv
    have hv' : NoCmd v := fun w hw hi => hv w hw (hi.trans ⟨[c], [], by simp⟩)
    rw [List.cons_append, afterDecl] at h
    have h1 : (c == '\\' && (v ++ z).head?.any isWord) = false := by
      by_contra hcon
      rw [Bool.not_eq_false, Bool.and_eq_true, beq_iff_eq] at hcon
      obtain ⟨rfl, hcon⟩ := hcon
      cases v with
      | cons w v =>
        simp at hcon
        exact hv w hcon ⟨[], v, by simp⟩
      | nil =>
        rcases hz with rfl | ⟨w, z', rfl, hw⟩ | ⟨z', rfl⟩
        · simp at hcon
        · exact absurd hcon (by simp [isWord])
        · exact absurd hcon (by simp [isWord])
    rw [h1, if_neg (by simp)] at h
    by_cases h2 : c = '$'
    · subst h2
      rw [if_pos (by simp), Bool.and_eq_true] at h
      have := ih d h.2 hv'
      simpa [List.count_cons] using this
    · rw [if_neg (by simpa using h2)] at h
      have := ih _ h hv'
      by_cases h3 : c = '{'
      · subst h3
        simp [List.count_cons] at this ⊢
        omega
      · by_cases h4 : c = '}'
        · subst h4
          simp [List.count_cons] at this ⊢
          omega
        · simp [h3, h4] at this ⊢
          omega

/-- The space after the command, then as above. -/
def spaceDecl (l : Str) : Bool :=
  match l with
  | [] => true
  | s :: q => !isSpace s || afterDecl 0 q

/-- The command of a possible declaration. -/
def declAfter (r : Str) : Bool :=
  let q := r.dropWhile isWord
  let skip (l : Str) : Str := l.drop (groupsOf l.length l).length
  spaceDecl (skip q) && (q.head? != some '*' || spaceDecl (skip q.tail)) &&
  (!("left".toList).isPrefixOf r || spaceDecl (r.drop 5)) && (!("right".toList).isPrefixOf r || spaceDecl (r.drop 6))

def declHere (t : Str) : Bool :=
  match t with
  | [] => true
  | c :: l =>
    c != '{' ||
    match l.dropWhile isSpace with
    | [] => true
    | b :: r => b != '\\' || declAfter r

theorem dropWhile_at {p : Char → Bool} {n l : Str} (h : ∀ c ∈ n, p c = true) (hl : ∀ c, l.head? = some c → p c = false) :
    (n ++ l).dropWhile p = l := by
  rw [List.dropWhile_append_of_pos h]
  cases l with
  | nil => rfl
  | cons c l => rw [List.dropWhile_cons_of_neg]; simp [hl c rfl]

theorem skip_groups {a q : Str} {s : Char} (ha : Groups a) (hs : isSpace s = true) :
    (a ++ s :: q).drop (groupsOf (a ++ s :: q).length (a ++ s :: q)).length = s :: q := by
  obtain ⟨f', h⟩ := groupsOf_spec ha (s :: q) (a ++ s :: q).length (by simp)
  have hs' : s ≠ '{' ∧ s ≠ '[' := by constructor <;> rintro rfl <;> exact absurd hs (by decide)
  have h0 : groupsOf f' (s :: q) = [] := by
    cases f' with
    | zero => rfl
    | succ f' => rw [groupsOf, if_neg hs'.1, if_neg hs'.2]
  rw [h, h0, List.append_nil, List.drop_left' rfl]

theorem groups_head_word {a q : Str} {s : Char} (ha : Groups a) (hs : isSpace s = true) (c : Char)
    (h : (a ++ s :: q).head? = some c) : isWord c = false := by
  rcases groups_head ha with rfl | ⟨o, r, rfl, ho⟩
  · simp only [List.nil_append, List.head?_cons, Option.some.injEq] at h
    subst h
    have : ∀ c, c ∈ [' ', '\t', '\n', '\r', '\x0b', '\x0c'] → isWord c = false := by decide
    exact this s (by simpa [isSpace] using hs)
  · simp only [List.cons_append, List.head?_cons, Option.some.injEq] at h
    subst h
    rcases ho with rfl | rfl <;> decide

theorem declAfter_sound {m v z : Str} {s : Char} (hm : DeclName m) (hs : isSpace s = true)
    (h : declAfter (m ++ s :: (v ++ z)) = true) : afterDecl 0 (v ++ z) = true := by
  unfold declAfter at h
  simp only [Bool.and_eq_true, Bool.or_eq_true, bne_iff_ne] at h
  obtain ⟨⟨⟨h1, h2⟩, h3⟩, h4⟩ := h
  rcases hm with ⟨n, star, a, rfl, hn, hw, hstar, ha⟩ | ⟨c, rfl | rfl⟩
  · rcases hstar with rfl | rfl
    · have e : n ++ [] ++ a ++ s :: (v ++ z) = n ++ (a ++ s :: (v ++ z)) := by simp
      rw [e, dropWhile_at hw (groups_head_word ha hs), skip_groups ha hs] at h1
      simpa [spaceDecl, hs] using h1
    · have e : n ++ ['*'] ++ a ++ s :: (v ++ z) = n ++ ('*' :: (a ++ s :: (v ++ z))) := by simp
      rw [e, dropWhile_at hw (by simp; decide)] at h2
      rcases h2 with h2 | h2
      · simp at h2
      · rw [List.tail_cons, skip_groups ha hs] at h2
        simpa [spaceDecl, hs] using h2
  · rcases h3 with h3 | h3
    · simp at h3
    · simpa [spaceDecl, hs] using h3
  · rcases h4 with h4 | h4
    · simp at h4
    · simpa [spaceDecl, hs] using h4

theorem declB_sound {t : Str} (h : allTails declHere t = true) : DeclOk t := by
  intro a ws m s v z e hws hm hs hv hz _
  rw [e, List.append_assoc] at h
  have h1 := allTails_at _ _ h
  have e1 : ('{' :: ws ++ '\\' :: m ++ s :: v) ++ z = '{' :: (ws ++ '\\' :: (m ++ s :: (v ++ z))) := by simp
  rw [e1] at h1
  simp only [declHere] at h1
  rw [dropWhile_at hws (by simp; decide)] at h1
  simp only [bne_self_eq_false, Bool.false_or] at h1
  have := afterDecl_sound v z hz 0 (declAfter_sound hm hs h1) hv
  omega

/-- No declaration at this position. -/
def noDeclW (t : Str) : Bool :=
  match t with
  | [] => true
  | c :: l =>
    c != '{' ||
    match l.dropWhile isSpace with
    | b :: w :: _ => b != '\\' || !isWord w
    | _ => true

def leftHere (t : Str) : Bool :=
  !("\\left".toList).isPrefixOf t || allTails noDeclW (groupsOf (t.drop 5).length (t.drop 5)).tail

theorem leftB_sound {t : Str} (h : allTails leftHere t = true) : LeftOk t := by
  rintro c g hg ⟨a, b, e⟩ ws w hws hw ⟨p, q, e2⟩
  rw [← e, List.append_assoc] at h
  have h1 := allTails_at _ _ h
  unfold leftHere at h1
  rw [Bool.or_eq_true] at h1
  rcases h1 with h1 | h1
  · simp at h1
  · have e3 : ("\\left".toList ++ c :: g ++ b).drop 5 = (c :: g) ++ b := by simp
    rw [e3] at h1
    obtain ⟨f', h2⟩ := groupsOf_spec hg b ((c :: g) ++ b).length (by simp)
    rw [h2, List.cons_append, List.tail_cons, ← e2, List.append_assoc, List.append_assoc] at h1
    have h3 := allTails_at _ _ h1
    have e4 : ('{' :: ws ++ ['\\', w]) ++ (q ++ groupsOf f' b) = '{' :: (ws ++ '\\' :: w :: (q ++ groupsOf f' b)) := by simp
    rw [e4] at h3
    simp only [noDeclW] at h3
    rw [dropWhile_at hws (by simp; decide)] at h3
    simp [hw] at h3

def tameB (t : Str) : Bool := basicB t && dollarsB t && allTails declHere t && allTails leftHere t

theorem tameB_sound {t : Str} (h : tameB t = true) : Tame t := by
  unfold tameB at h
  simp only [Bool.and_eq_true] at h
  exact ⟨basicB_sound h.1.1.1, dollarsB_sound h.1.1.2, declB_sound h.1.2, leftB_sound h.2⟩

/-- Texts without any declaration are tame as before. -/
theorem Plain.tame {t : Str} (h : Plain t) : Tame t where
  basic := h.1
  dollars := h.2.1
  decl := declOk_of_none (fun ws w hws _ hi => h.2.2 ws hws (List.IsInfix.trans ⟨[], [w], by simp⟩ hi))
  left := fun c g _ hi ws w hws _ hi2 => h.2.2 ws hws
    (List.IsInfix.trans (List.IsInfix.trans ⟨[], [w], by simp⟩ hi2) (List.IsInfix.trans ⟨"\\left".toList ++ [c], [], by simp⟩ hi))

/-- Non-vacuity: declarations with and without padding, with inner braces, with arguments, several in a
row, with commands in them, inside environments and before mathematics. -/
def sampleDecl : Str := ("Some {\\bf very {big} words} and { \\it slanted}{\\color{red} red $x$ text} here.\n" ++
  "\\begin{quote}{\\small a \\emph{b} c} $\\left(x{\\rm d} x\\right)$ {\\em both\nlines}\\end{quote}" ++
  "{\\'e} {\\sc Last} $y^{a^{b}}$ {\\tt open").toList

theorem sampleDecl_tame : Tame sampleDecl := tameB_sound (by decide +kernel)

example : ∃ ns, toNodes sampleDecl = .ok ns ∧ printL ns = sampleDecl := roundtrip sampleDecl sampleDecl_tame

/-- The declarations are found: the text becomes the content of a declaration. -/
theorem declaration_found :
    toNodes "so {\\bf very} nice".toList = .ok [.text "so ".toList,
      .enc [] (.cmd "bf".toList []) [.text " very".toList], .text " nice".toList] := by
  with_unfolding_all rfl

/-- The conditions on declarations are needed: with one more opening brace before the next command
text is printed twice, lost or added. -/
theorem declaration_condition_needed :
    reprint "{\\bf a} {{b \\foo x}}" = .ok "{\\bf a} {{b \\foo x}}\\foo".toList := by decide +kernel

/-- ... and so is the one on `\left`: a brace is added. -/
theorem left_condition_needed :
    reprint "\\left[{\\bf y {]z" = .ok "\\left[{\\bf y {]}z".toList := by decide +kernel

/-- A name of an environment with `\end` in it: part of it is printed twice. -/
theorem end_name_duplicated :
    reprint "\\begin{a\\end} y \\end{a\\end}" = .ok "\\begin{a\\end} y \\end{a\\end{a\\end}".toList := by decide +kernel

/-- A command after `\right` makes parsing fail. -/
theorem right_command_raises : reprint "\\right\\rangle x" = .error .indexError := by decide +kernel

end Verif.TeX
