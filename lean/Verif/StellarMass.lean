import Verif.Phot
import Mathlib.Tactic.NormNum
import Mathlib.Tactic.Linarith

/-!
# Stellar masses from SDSS magnitudes (astropysics/phot.py 2984-3079) (C163)

Real arithmetic for doubles, single objects (arrays act elementwise).  `mags` is a Python 2 dictionary whose iteration order is a
parameter; the order of 64-bit CPython 2 (without hash randomisation) is computed from the slots of its hash table.
`ML_ratio_from_color`, `M_star_from_mags` (2912-2983) are not modelled: the table there is three positional arguments of `np.array`,
so that every call with a valid colour raises TypeError.
-/

namespace Verif.StellarMass

noncomputable section

/-- The eight bands. -/
inductive Band
  | u | g | r | i | z | J | H | K
  deriving DecidableEq

/-- The colours of the table. -/
inductive Colour
  | ug | ur | ui | uz | gr | gi | gz | ri | rz
  deriving DecidableEq

/-- `colorrowmap` in its order, phot.py 3021. -/
def colours : List Colour := [.ug, .ur, .ui, .uz, .gr, .gi, .gz, .ri, .rz]

/-- `c1,c2 = color.split('-')`, phot.py 3070. -/
def Colour.bands : Colour → Band × Band
  | .ug => (.u, .g) | .ur => (.u, .r) | .ui => (.u, .i) | .uz => (.u, .z) | .gr => (.g, .r)
  | .gi => (.g, .i) | .gz => (.g, .z) | .ri => (.r, .i) | .rz => (.r, .z)

/-- `b03table`, phot.py 3003-3020: the even and odd entries of the row in pairs. -/
def table : Colour → List (ℝ × ℝ)
  | .ug => [(-0.221, 0.485), (-0.099, 0.345), (-0.053, 0.268), (-0.105, 0.226), (-0.128, 0.169), (-0.209, 0.133), (-0.26, 0.123)]
  | .ur => [(-0.39, 0.417), (-0.223, 0.299), (-0.151, 0.233), (-0.178, 0.192), (-0.172, 0.138), (-0.237, 0.104), (-0.273, 0.091)]
  | .ui => [(-0.375, 0.359), (-0.212, 0.257), (-0.144, 0.201), (-0.171, 0.165), (-0.169, 0.119), (-0.233, 0.09), (-0.267, 0.077)]
  | .uz => [(-0.4, 0.332), (-0.232, 0.239), (-0.161, 0.187), (-0.179, 0.151), (-0.163, 0.105), (-0.205, 0.071), (-0.232, 0.056)]
  | .gr => [(-0.499, 1.519), (-0.306, 1.097), (-0.222, 0.864), (-0.223, 0.689), (-0.172, 0.444), (-0.189, 0.266), (-0.209, 0.197)]
  | .gi => [(-0.379, 0.914), (-0.22, 0.661), (-0.152, 0.518), (-0.175, 0.421), (-0.153, 0.283), (-0.186, 0.179), (-0.211, 0.137)]
  | .gz => [(-0.367, 0.698), (-0.215, 0.508), (-0.153, 0.402), (-0.171, 0.322), (-0.097, 0.175), (-0.117, 0.083), (-0.138, 0.047)]
  | .ri => [(-0.106, 1.982), (-0.022, 1.431), (0.006, 1.114), (-0.052, 0.923), (-0.079, 0.650), (-0.148, 0.437), (-0.186, 0.349)]
  | .rz => [(-0.124, 1.067), (-0.041, 0.78), (-0.018, 0.623), (-0.041, 0.463), (-0.011, 0.224), (-0.059, 0.076), (-0.092, 0.019)]

/-- `ML_ratio_from_color_SDSS(c,color)`, phot.py 2984-3026. -/
def ratios (col : Colour) (c : ℝ) : List ℝ := (table col).map (fun p => (10 : ℝ) ^ (p.1 + p.2 * c))

/-- `_band_to_msun`, phot.py 3243-3255. -/
def msun : Band → ℝ
  | .J => 3.64 | .H => 3.32 | .K => 3.28 | .u => 6.75 | .g => 5.33 | .r => 4.67 | .i => 4.48 | .z => 4.42

/-- `mag_to_lum(mag,bstr)`, phot.py 3257-3314. -/
def lum (b : Band) (m : ℝ) : ℝ := Phot.magToFlux (m - msun b) * 1

/-- The elements of the list comprehension of phot.py 3075, with the band: `zip(mags.values(),mags.keys(),mlrs)` where `order` is the
order of the dictionary. -/
def masses (order : List Band) (mags : Band → Option ℝ) (mlrs : List ℝ) : List (Band × ℝ) :=
  (order.zip mlrs).filterMap (fun p => (mags p.1).map (fun m => (p.1, lum p.1 m * p.2)))

/-- `np.mean`. -/
def mean (l : List ℝ) : ℝ := l.sum / l.length

/-- `M_star_from_mags_SDSS` with one colour, phot.py 3069-3077: None (TypeError) if a magnitude of the colour is missing; otherwise the mean
and the masses. -/
def mstar (order : List Band) (mags : Band → Option ℝ) (col : Colour) : Option (ℝ × List (Band × ℝ)) :=
  match mags col.bands.1, mags col.bands.2 with
  | some x, some y =>
    let ms := masses order mags (ratios col (x - y))
    some (mean (ms.map (·.2)), ms)
  | _, _ => none

/-- The nine calls of `color='mean'`, phot.py 3064-3066. -/
def rows (order : List Band) (mags : Band → Option ℝ) : List Colour → Option (List (List ℝ))
  | [] => some []
  | c :: cs =>
    match mstar order mags c, rows order mags cs with
    | some (_, ms), some rest => some (ms.map (·.2) :: rest)
    | _, _ => none

/-- `mstars.mean(axis=0)`: column means of rows of equal length `n`. -/
def columnMeans (n : ℕ) (m : List (List ℝ)) : List ℝ := (List.range n).map (fun k => mean (m.map (fun row => row.getD k 0)))

/-- `M_star_from_mags_SDSS(...,color='mean')`, phot.py 3063-3068. -/
def mstarMean (order : List Band) (mags : Band → Option ℝ) : Option (ℝ × List (List ℝ)) :=
  match rows order mags colours with
  | none => none
  | some m => some (mean (columnMeans ((m.headD []).length) m), m)

/-! ## Specification -/

/-- The bands the table has columns for, in their order (documentation, phot.py 2999). -/
def columns : List Band := [.g, .r, .i, .z, .J, .H, .K]

/-- The coefficients of a band in a row. -/
def coef (col : Colour) (b : Band) : Option (ℝ × ℝ) := ((columns.zip (table col)).find? (fun p => p.1 == b)).map (·.2)

/-- The mass-to-light ratio in a band for a colour. -/
def ratio (col : Colour) (c : ℝ) (b : Band) : Option ℝ := (coef col b).map (fun p => (10 : ℝ) ^ (p.1 + p.2 * c))

/-- The stellar mass by a band: luminosity in the band times the ratio for the band. -/
def massBy (mags : Band → Option ℝ) (col : Colour) (c : ℝ) (b : Band) : Option ℝ :=
  match mags b, ratio col c b with
  | some m, some q => some (lum b m * q)
  | _, _ => none

/-- The answer is right: every band with a magnitude and a column gives its mass, and nothing else is given. -/
def Right (mags : Band → Option ℝ) (col : Colour) (c : ℝ) (ms : List (Band × ℝ)) : Prop :=
  ∀ b x, (b, x) ∈ ms ↔ massBy mags col c b = some x

/-- The order in which the dictionary would have to be iterated. -/
def goodOrder : List Band := [.g, .r, .i, .z, .J, .H, .K, .u]

/-- All eight bands, each once. -/
def IsOrder (order : List Band) : Prop := order.length = 8 ∧ order.Nodup

/-- The character of a band. -/
def Band.char : Band → Char
  | .u => 'u' | .g => 'g' | .r => 'r' | .i => 'i' | .z => 'z' | .J => 'J' | .H => 'H' | .K => 'K'

/-- The slot of a one-character string in a table of 32 slots: the hash is `(1000003*(c << 7)) ^ c ^ 1`, of which five bits count. -/
def slot (b : Band) : ℕ := ((1000003 * (b.char.toNat <<< 7)) ^^^ b.char.toNat ^^^ 1) % 32

/-- Iteration goes by slots. -/
def cpython2 : List Band := [.g, .i, .H, .K, .J, .r, .u, .z]

/-! ## C163 -/

/-- C163.  An object with the absolute magnitude of the Sun in a band has one solar luminosity there. -/
theorem sun_unit : lum .J 3.64 = 1 ∧ lum .H 3.32 = 1 ∧ lum .K 3.28 = 1 ∧ lum .u 6.75 = 1 ∧ lum .g 5.33 = 1 ∧ lum .r 4.67 = 1 ∧ lum .i 4.48 = 1 ∧ lum .z 4.42 = 1 := by
  simp [lum, msun, Phot.magToFlux]

theorem ratio_length (col : Colour) (c : ℝ) : (ratios col c).length = 7 := by cases col <;> rfl

theorem ratio_eq (col : Colour) (c : ℝ) (k : ℕ) (b : Band) (h : columns[k]? = some b) : (ratios col c)[k]? = ratio col c b := by
  rcases k with _|_|_|_|_|_|_|k
  · obtain rfl : Band.g = b := by simpa [columns] using h
    cases col <;> rfl
  · obtain rfl : Band.r = b := by simpa [columns] using h
    cases col <;> rfl
  · obtain rfl : Band.i = b := by simpa [columns] using h
    cases col <;> rfl
  · obtain rfl : Band.z = b := by simpa [columns] using h
    cases col <;> rfl
  · obtain rfl : Band.J = b := by simpa [columns] using h
    cases col <;> rfl
  · obtain rfl : Band.H = b := by simpa [columns] using h
    cases col <;> rfl
  · obtain rfl : Band.K = b := by simpa [columns] using h
    cases col <;> rfl
  · simp [columns] at h

/-- Every ratio is positive and grows with the colour: redder is heavier. -/
theorem ratio_increasing (col : Colour) (b : Band) (c c' : ℝ) (h : c < c') (q q' : ℝ) (h1 : ratio col c b = some q) (h2 : ratio col c' b = some q') :
    0 < q ∧ q < q' := by
  have hb : ∀ p, coef col b = some p → 0 < p.2 := by
    intro p hp
    cases col <;> cases b <;> first
      | (simp [coef, columns, table] at hp; done)
      | (simp [coef, columns, table] at hp; subst hp; norm_num)
  unfold ratio at h1 h2
  cases hc : coef col b with
  | none => rw [hc] at h1; cases h1
  | some p =>
    rw [hc] at h1 h2
    simp only [Option.map_some, Option.some.injEq] at h1 h2
    subst h1; subst h2
    have := hb p hc
    refine ⟨Real.rpow_pos_of_pos (by norm_num) _, Real.rpow_lt_rpow_of_exponent_lt (by norm_num) ?_⟩
    nlinarith

theorem mem_masses (order : List Band) (mags : Band → Option ℝ) (mlrs : List ℝ) (b : Band) (x : ℝ) :
    (b, x) ∈ masses order mags mlrs ↔ ∃ (k : ℕ) (m q : ℝ), order[k]? = some b ∧ mlrs[k]? = some q ∧ mags b = some m ∧ x = lum b m * q := by
  unfold masses
  rw [List.mem_filterMap]
  constructor
  · rintro ⟨⟨b', q⟩, hm, hx⟩
    obtain ⟨k, hk⟩ := List.mem_iff_getElem?.1 hm
    rw [List.getElem?_zip_eq_some] at hk
    cases hmb : mags b' with
    | none => simp [hmb] at hx
    | some m =>
      simp only [hmb, Option.map_some, Option.some.injEq, Prod.mk.injEq] at hx
      obtain ⟨rfl, rfl⟩ := hx
      exact ⟨k, m, q, hk.1, hk.2, hmb, rfl⟩
  · rintro ⟨k, m, q, h1, h2, h3, rfl⟩
    refine ⟨(b, q), List.mem_iff_getElem?.2 ⟨k, List.getElem?_zip_eq_some.2 ⟨h1, h2⟩⟩, ?_⟩
    simp [h3]

/-- With a single colour the masses listed are, in the order of the dictionary, each band's luminosity times the ratio of the band that
has the same place in the table; the first value is their mean. -/
theorem mstar_exact (order : List Band) (mags : Band → Option ℝ) (col : Colour) (x y : ℝ) (hx : mags col.bands.1 = some x)
    (hy : mags col.bands.2 = some y) :
    ∃ v ms, mstar order mags col = some (v, ms) ∧ v = (ms.map (·.2)).sum / ms.length ∧
      ∀ b w, (b, w) ∈ ms ↔ ∃ (k : ℕ) (b' : Band) (m q : ℝ), order[k]? = some b ∧ columns[k]? = some b' ∧ mags b = some m ∧
        ratio col (x - y) b' = some q ∧ w = lum b m * q := by
  have e : mstar order mags col = some (mean ((masses order mags (ratios col (x - y))).map (·.2)), masses order mags (ratios col (x - y))) := by
    simp only [mstar, hx, hy]
  refine ⟨_, _, e, by simp [mean], ?_⟩
  intro b w
  rw [mem_masses]
  constructor
  · rintro ⟨k, m, q, h1, h2, h3, h4⟩
    have hk : k < columns.length := by
      have := (List.getElem?_eq_some_iff.1 h2).1
      rw [ratio_length] at this; exact this
    exact ⟨k, columns[k], m, q, h1, List.getElem?_eq_getElem hk, h3, by rw [← ratio_eq _ _ k _ (List.getElem?_eq_getElem hk)]; exact h2, h4⟩
  · rintro ⟨k, b', m, q, h1, h2, h3, h4, h5⟩
    exact ⟨k, m, q, h1, by rw [ratio_eq _ _ k b' h2]; exact h4, h3, h5⟩

/-- A colour of which a magnitude is missing raises. -/
theorem missing_colour (order : List Band) (mags : Band → Option ℝ) (col : Colour) (h : mags col.bands.1 = none ∨ mags col.bands.2 = none) :
    mstar order mags col = none := by
  unfold mstar
  rcases h with h | h
  · rw [h]
  · rw [h]; cases mags col.bands.1 <;> rfl

theorem columns_inj {j k : ℕ} {b : Band} (h1 : columns[j]? = some b) (h2 : columns[k]? = some b) : j = k := by
  have hn : columns.Nodup := by decide
  exact (List.getElem?_inj (List.getElem?_eq_some_iff.1 h1).1 hn).1 (h1.trans h2.symm)

theorem ratio_none (col : Colour) (c : ℝ) : ratio col c .u = none := by cases col <;> rfl

theorem ratio_ne (b b' : Band) (q : ℝ) (h1 : ratio .gr 0 b = some q) (h2 : ratio .gr 0 b' = some q) : b = b' := by
  have key : ∀ p p', coef .gr b = some p → coef .gr b' = some p' → p.1 = p'.1 := by
    intro p p' hp hp'
    unfold ratio at h1 h2
    rw [hp] at h1; rw [hp'] at h2
    simp only [Option.map_some, mul_zero, add_zero, Option.some.injEq] at h1 h2
    rw [← h2] at h1
    exact (Real.rpow_right_inj (by norm_num) (by norm_num)).1 h1
  cases b <;> cases b' <;> first
    | rfl
    | (rw [ratio_none] at h1; cases h1; done)
    | (rw [ratio_none] at h2; cases h2; done)
    | (have := key _ _ rfl rfl; norm_num at this)

/-- The masses are right for all magnitudes and colours exactly if the dictionary happens to be iterated in one particular order. -/
theorem right_iff_order (order : List Band) (ho : IsOrder order) :
    (∀ (mags : Band → Option ℝ) (col : Colour) (x y : ℝ), mags col.bands.1 = some x → mags col.bands.2 = some y →
      ∃ v ms, mstar order mags col = some (v, ms) ∧ Right mags col (x - y) ms) ↔ order = goodOrder := by
  constructor
  · intro h
    obtain ⟨v, ms, h1, h2⟩ := h (fun _ => some 0) .gr 0 0 rfl rfl
    obtain ⟨v', ms', h1', _, h3⟩ := mstar_exact order (fun _ => some 0) .gr 0 0 rfl rfl
    rw [h1'] at h1
    obtain ⟨rfl, rfl⟩ := Prod.mk.inj (Option.some.inj h1)
    have key : ∀ (k : ℕ) (b' : Band), columns[k]? = some b' → order[k]? = some b' := by
      intro k b' hk
      have hlt : k < order.length := by
        have := (List.getElem?_eq_some_iff.1 hk).1
        have e : columns.length = 7 := rfl
        rw [ho.1]; omega
      obtain ⟨q, hq⟩ : ∃ q, ratio .gr (0 - 0) b' = some q := by
        cases hr : ratio .gr (0 - 0) b' with
        | some q => exact ⟨q, rfl⟩
        | none =>
          rw [← ratio_eq _ _ k b' hk] at hr
          have := List.getElem?_eq_none_iff.1 hr
          rw [ratio_length] at this
          have := (List.getElem?_eq_some_iff.1 hk).1
          have e : columns.length = 7 := rfl
          omega
      have hm : (order[k], lum order[k] 0 * q) ∈ ms' :=
        (h3 _ _).2 ⟨k, b', 0, q, List.getElem?_eq_getElem hlt, hk, rfl, hq, rfl⟩
      have hr := (h2 _ _).1 hm
      unfold massBy at hr
      simp only at hr
      cases hq' : ratio .gr (0 - 0) order[k] with
      | none => rw [hq'] at hr; cases hr
      | some q' =>
        rw [hq'] at hr
        simp only [Option.some.injEq] at hr
        have hl : lum order[k] 0 ≠ 0 := by
          unfold lum Phot.magToFlux; simp [Real.exp_ne_zero]
        have hqq : q' = q := mul_left_cancel₀ hl hr
        subst hqq
        rw [sub_zero] at hq hq'
        have := ratio_ne _ _ _ hq' hq
        rw [List.getElem?_eq_getElem hlt, this]
    obtain ⟨hlen, hnd⟩ := ho
    match order, hlen with
    | [a0, a1, a2, a3, a4, a5, a6, a7], _ =>
      have e0 := key 0 .g rfl
      have e1 := key 1 .r rfl
      have e2 := key 2 .i rfl
      have e3 := key 3 .z rfl
      have e4 := key 4 .J rfl
      have e5 := key 5 .H rfl
      have e6 := key 6 .K rfl
      simp only [List.getElem?_cons_zero, List.getElem?_cons_succ, Option.some.injEq] at e0 e1 e2 e3 e4 e5 e6
      subst e0 e1 e2 e3 e4 e5 e6
      cases a7 <;> first | rfl | (exact absurd hnd (by decide))
  · rintro rfl mags col x y hx hy
    obtain ⟨v, ms, h1, _, h3⟩ := mstar_exact goodOrder mags col x y hx hy
    refine ⟨v, ms, h1, ?_⟩
    intro b w
    rw [h3]
    unfold massBy
    constructor
    · rintro ⟨k, b', m, q, e1, e2, e3, e4, rfl⟩
      have hk : k < 7 := (List.getElem?_eq_some_iff.1 e2).1
      have : goodOrder[k]? = columns[k]? := by
        show (columns ++ [Band.u])[k]? = columns[k]?
        rw [List.getElem?_append_left hk]
      rw [this, e2] at e1
      cases e1
      rw [e3, e4]
    · intro hw
      cases hm : mags b with
      | none => rw [hm] at hw; cases hw
      | some m =>
        cases hq : ratio col (x - y) b with
        | none => rw [hm, hq] at hw; cases hw
        | some q =>
          rw [hm, hq] at hw
          simp only [Option.some.injEq] at hw
          have hb : ∃ k : ℕ, columns[k]? = some b := by
            cases b with
            | u => rw [ratio_none] at hq; cases hq
            | g => exact ⟨0, rfl⟩
            | r => exact ⟨1, rfl⟩
            | i => exact ⟨2, rfl⟩
            | z => exact ⟨3, rfl⟩
            | J => exact ⟨4, rfl⟩
            | H => exact ⟨5, rfl⟩
            | K => exact ⟨6, rfl⟩
          obtain ⟨k, hk⟩ := hb
          have hlt : k < 7 := (List.getElem?_eq_some_iff.1 hk).1
          refine ⟨k, b, m, q, ?_, hk, rfl, hq, hw.symm⟩
          show (columns ++ [Band.u])[k]? = some b
          rw [List.getElem?_append_left hlt, hk]

/-- The order of CPython 2: the eight keys have different slots, in increasing order in this list. -/
theorem cpython2_order : IsOrder cpython2 ∧ cpython2.map slot = [6, 8, 9, 10, 11, 19, 20, 27] := by
  refine ⟨⟨rfl, by decide⟩, by decide⟩

/-- There the mass by the i band is computed with the ratio of the r band, that by r with the ratio of H, and the z band is ignored. -/
theorem cpython2_wrong (mags : Band → Option ℝ) (col : Colour) (x y mi mr mz : ℝ) (hx : mags col.bands.1 = some x) (hy : mags col.bands.2 = some y)
    (hi : mags .i = some mi) (hr : mags .r = some mr) (hz : mags .z = some mz) :
    ∃ v ms qr qH, mstar cpython2 mags col = some (v, ms) ∧ ratio col (x - y) .r = some qr ∧ ratio col (x - y) .H = some qH ∧
      (∀ w, (Band.i, w) ∈ ms ↔ w = lum .i mi * qr) ∧ (∀ w, (Band.r, w) ∈ ms ↔ w = lum .r mr * qH) ∧ (∀ w, (Band.z, w) ∉ ms) := by
  obtain ⟨v, ms, h1, _, h3⟩ := mstar_exact cpython2 mags col x y hx hy
  have hn : cpython2.Nodup := by decide
  have q : ∀ b, b ∈ columns → ∃ q, ratio col (x - y) b = some q := by
    intro b hb
    cases b <;> first | (exact absurd hb (by decide)) | (cases col <;> exact ⟨_, rfl⟩)
  obtain ⟨qr, hqr⟩ := q .r (by decide)
  obtain ⟨qH, hqH⟩ := q .H (by decide)
  have at' : ∀ (k k' : ℕ) (b : Band), cpython2[k']? = some b → cpython2[k]? = some b → k = k' := by
    intro k k' b e1 e2
    exact (List.getElem?_inj (List.getElem?_eq_some_iff.1 e2).1 hn).1 (e2.trans e1.symm)
  refine ⟨v, ms, qr, qH, h1, hqr, hqH, ?_, ?_, ?_⟩
  · intro w
    rw [h3]
    constructor
    · rintro ⟨k, b', m, q, e1, e2, e3, e4, rfl⟩
      obtain rfl := at' k 1 _ rfl e1
      cases e2
      rw [hi] at e3; cases e3
      rw [hqr] at e4; cases e4
      rfl
    · rintro rfl
      exact ⟨1, .r, mi, qr, rfl, rfl, hi, hqr, rfl⟩
  · intro w
    rw [h3]
    constructor
    · rintro ⟨k, b', m, q, e1, e2, e3, e4, rfl⟩
      obtain rfl := at' k 5 _ rfl e1
      cases e2
      rw [hr] at e3; cases e3
      rw [hqH] at e4; cases e4
      rfl
    · rintro rfl
      exact ⟨5, .H, mr, qH, rfl, rfl, hr, hqH, rfl⟩
  · intro w hw
    obtain ⟨k, b', m, q, e1, e2, _⟩ := (h3 _ _).1 hw
    obtain rfl := at' k 7 _ rfl e1
    cases e2

/-- The same bands contribute for every colour. -/
theorem masses_length (order : List Band) (mags : Band → Option ℝ) (mlrs mlrs' : List ℝ) (h : mlrs.length = mlrs'.length) :
    (masses order mags mlrs).length = (masses order mags mlrs').length := by
  unfold masses
  induction order generalizing mlrs mlrs' with
  | nil => simp
  | cons b order ih =>
    cases mlrs with
    | nil => cases mlrs' with
      | nil => rfl
      | cons => cases h
    | cons q mlrs => cases mlrs' with
      | nil => cases h
      | cons q' mlrs' =>
        simp only [List.length_cons, Nat.add_right_cancel_iff] at h
        simp only [List.zip_cons_cons, List.filterMap_cons]
        cases mags b <;> simp [ih mlrs mlrs' h]

theorem sum_range_getD (row : List ℝ) : ((List.range row.length).map (fun k => row.getD k 0)).sum = row.sum := by
  congr 1
  apply List.ext_getElem
  · simp
  · intro i h1 h2
    simp [List.getD, h2]

theorem sum_div (l : List ℝ) (c : ℝ) : (l.map (fun x => x / c)).sum = l.sum / c := by
  induction l with
  | nil => simp
  | cons x l ih => simp only [List.map_cons, List.sum_cons, ih]; ring

theorem sum_add (l : List ℕ) (f h : ℕ → ℝ) : (l.map (fun k => f k + h k)).sum = (l.map f).sum + (l.map h).sum := by
  induction l with
  | nil => simp
  | cons x l ih => simp only [List.map_cons, List.sum_cons, ih]; ring

theorem sum_columns (n : ℕ) (m : List (List ℝ)) (h : ∀ row ∈ m, row.length = n) :
    ((List.range n).map (fun k => (m.map (fun row => row.getD k 0)).sum)).sum = (m.map List.sum).sum := by
  induction m with
  | nil => simp
  | cons row m ih =>
    simp only [List.map_cons, List.sum_cons]
    rw [sum_add, ih (fun r hr => h r (by simp [hr])), ← h row (by simp), sum_range_getD]

/-- The mean of the column means of a rectangular array is the mean of the row means. -/
theorem mean_columns (n : ℕ) (m : List (List ℝ)) (h : ∀ row ∈ m, row.length = n) :
    mean (columnMeans n m) = mean (m.map mean) := by
  unfold mean columnMeans mean
  simp only [List.length_map, List.length_range]
  have e1 : ((List.range n).map (fun k => (m.map (fun row => row.getD k 0)).sum / (m.length : ℝ))).sum = (m.map List.sum).sum / m.length := by
    rw [← sum_columns n m h, ← sum_div]
    simp [List.map_map, Function.comp_def]
  have e2 : (m.map (fun l => l.sum / (l.length : ℝ))).sum = (m.map List.sum).sum / n := by
    rw [← sum_div, List.map_map]
    congr 1
    apply List.map_congr_left
    intro row hr
    simp [h row hr]
  rw [e1, e2]
  ring

theorem rows_spec (order : List Band) (mags : Band → Option ℝ) (cs : List Colour) :
    (∀ m, rows order mags cs = some m → m.map mean = cs.filterMap (fun c => (mstar order mags c).map (·.1)) ∧ m.length = cs.length ∧
      ∀ c ∈ cs, (mstar order mags c).isSome) ∧
    (rows order mags cs = none → ∃ c ∈ cs, mstar order mags c = none) := by
  induction cs with
  | nil => exact ⟨fun m h => by cases h; simp, fun h => by cases h⟩
  | cons c cs ih =>
    obtain ⟨i1, i2⟩ := ih
    cases hc : mstar order mags c with
    | none =>
      refine ⟨fun m h => ?_, fun _ => ⟨c, by simp, hc⟩⟩
      simp [rows, hc] at h
    | some p =>
      obtain ⟨v, ms⟩ := p
      cases hr : rows order mags cs with
      | none =>
        refine ⟨fun m h => ?_, fun _ => ?_⟩
        · simp [rows, hc, hr] at h
        · obtain ⟨c', h1, h2⟩ := i2 hr
          exact ⟨c', by simp [h1], h2⟩
      | some rest =>
        obtain ⟨j1, j2, j3⟩ := i1 rest hr
        refine ⟨fun m h => ?_, fun h => by simp [rows, hc, hr] at h⟩
        simp only [rows, hc, hr, Option.some.injEq] at h
        subst h
        have hv : mean (ms.map (·.2)) = v := by
          unfold mstar at hc
          split at hc
          · obtain ⟨rfl, rfl⟩ := Prod.mk.inj (Option.some.inj hc); rfl
          · cases hc
        refine ⟨?_, by simp [j2], ?_⟩
        · simp [hc, hv, j1]
        · intro c' hc'
          rcases List.mem_cons.1 hc' with rfl | hc'
          · simp [hc]
          · exact j3 c' hc'

theorem rows_rect (order : List Band) (mags : Band → Option ℝ) (cs : List Colour) (m : List (List ℝ)) (h : rows order mags cs = some m) :
    ∀ row ∈ m, row.length = (masses order mags [0, 0, 0, 0, 0, 0, 0]).length := by
  induction cs generalizing m with
  | nil => cases h; simp
  | cons c cs ih =>
    unfold rows at h
    split at h
    · rename_i v ms rest hc hr
      cases h
      intro row hrow
      rcases List.mem_cons.1 hrow with rfl | hrow
      · unfold mstar at hc
        split at hc
        · obtain ⟨_, rfl⟩ := Prod.mk.inj (Option.some.inj hc)
          rw [List.length_map]
          exact masses_length _ _ _ _ (ratio_length _ _)
        · cases hc
      · exact ih rest hr row hrow
    · cases h

/-- `color='mean'` needs all five SDSS magnitudes and then gives the mean of the nine values of the single colours. -/
theorem mean_exact (order : List Band) (mags : Band → Option ℝ) :
    (∀ v m, mstarMean order mags = some (v, m) → v = (colours.filterMap (fun c => (mstar order mags c).map (·.1))).sum / 9 ∧
      ∀ c, ∃ r, mstar order mags c = some r) ∧
    (mstarMean order mags = none ↔ ∃ b, b ∈ [Band.u, .g, .r, .i, .z] ∧ mags b = none) := by
  obtain ⟨h1, h2⟩ := rows_spec order mags colours
  constructor
  · intro v m h
    unfold mstarMean at h
    split at h
    · cases h
    · rename_i m' hm
      cases h
      obtain ⟨j1, j2, j3⟩ := h1 m hm
      have hrect := rows_rect order mags colours m hm
      have hhead : (m.headD []).length = (masses order mags [0, 0, 0, 0, 0, 0, 0]).length := by
        cases m with
        | nil => cases j2
        | cons row m => exact hrect row (by simp)
      refine ⟨?_, ?_⟩
      · rw [hhead, mean_columns _ m hrect, j1]
        show (colours.filterMap _).sum / ((colours.filterMap _).length : ℝ) = _
        rw [← j1, List.length_map, j2]
        rfl
      · intro c
        have : c ∈ colours := by cases c <;> decide
        exact Option.isSome_iff_exists.1 (j3 c this)
  · have hnone : mstarMean order mags = none ↔ rows order mags colours = none := by
      unfold mstarMean
      cases rows order mags colours <;> simp
    rw [hnone]
    constructor
    · intro h
      obtain ⟨c, _, hc⟩ := h2 h
      unfold mstar at hc
      split at hc
      · cases hc
      · rename_i hno
        have hcb : c.bands.1 ∈ [Band.u, .g, .r, .i, .z] ∧ c.bands.2 ∈ [Band.u, .g, .r, .i, .z] := by cases c <;> decide
        cases e1 : mags c.bands.1 with
        | none => exact ⟨_, hcb.1, e1⟩
        | some x =>
          cases e2 : mags c.bands.2 with
          | none => exact ⟨_, hcb.2, e2⟩
          | some y => exact absurd e2 (hno x y e1)
    · rintro ⟨b, hb, hm⟩
      cases hr : rows order mags colours with
      | none => rfl
      | some m =>
        obtain ⟨_, _, j3⟩ := h1 m hr
        have : ∃ c : Colour, c.bands.1 = b ∨ c.bands.2 = b := by
          simp only [List.mem_cons, List.not_mem_nil, or_false] at hb
          rcases hb with rfl | rfl | rfl | rfl | rfl
          · exact ⟨.ug, Or.inl rfl⟩
          · exact ⟨.ug, Or.inr rfl⟩
          · exact ⟨.ur, Or.inr rfl⟩
          · exact ⟨.ui, Or.inr rfl⟩
          · exact ⟨.uz, Or.inr rfl⟩
        obtain ⟨c, hc⟩ := this
        have hn := missing_colour order mags c (by rcases hc with rfl | rfl <;> simp [hm])
        have := j3 c (by cases c <;> decide)
        rw [hn] at this; cases this

end

end Verif.StellarMass
