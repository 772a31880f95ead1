import Mathlib.Analysis.SpecialFunctions.Trigonometric.Basic
import Mathlib.Analysis.SpecialFunctions.Pow.Real
import Mathlib.Algebra.Order.Round
import Mathlib.Tactic.Linarith
import Mathlib.Tactic.Ring
import Mathlib.Tactic.FieldSimp

/-!
# Dust maps (astropysics/obstools.py 2270-2416) (C167)

`get_SFD_dust` and `get_dust_radec`.  Real arithmetic; coordinates are scalars or one-dimensional arrays; `scipy.ndimage.map_coordinates` is a
parameter.  Not modelled: a `dustmap` that is not a `str` (ValueError), file patterns with more than one `%`.
-/

open Real

namespace Verif.DustMap

/-- The exceptions: ValueError, IOError, AssertionError, UnboundLocalError, IndexError, ImportError. -/
inductive Err
  | value | io | assertion | unbound | index | import
  deriving DecidableEq

abbrev Text := List Char

/-- The image of a FITS file. -/
structure Map where
  rows : ℕ
  cols : ℕ
  val : ℕ → ℕ → ℝ

/-- The file of a map, or the pair of files before and after `%s` (`x%s.fits` has the files `xngp.fits` and `xsgp.fits`). -/
inductive File
  | single (name : Text)
  | pair (pre post : Text)
  deriving DecidableEq

/-- `dustmap.lower()` for ASCII. -/
def lower (t : Text) : Text := t.map Char.toLower

/-- A file name with or without `%s`. -/
def parseFile : Text → File
  | [] => .single []
  | c :: t =>
    if c = '%' ∧ t.head? = some 's' then .pair [] t.tail
    else match parseFile t with
      | .single n => .single (c :: n)
      | .pair a b => .pair (c :: a) b

/-- `dustmapfn`, obstools.py 2306-2319. -/
def mapFile (dustmap : Text) : File :=
  let dml := lower dustmap
  if dml = "ebv".toList ∨ dml = "eb-v".toList ∨ dml = "e(b-v)".toList then .pair "SFD_dust_4096_".toList ".fits".toList
  else if dml = "i100".toList then .pair "SFD_i100_4096_".toList ".fits".toList
  else if dml = "x".toList then .pair "SFD_xmap_".toList ".fits".toList
  else if dml = "t".toList then .pair "SFD_temp_".toList ".fits".toList
  else if dml = "mask".toList then .pair "SFD_mask_4096_".toList ".fits".toList
  else parseFile dustmap

/-- `numpy.round`: to the nearest integer, halves to the even one. -/
noncomputable def npRound (x : ℝ) : ℤ :=
  if Int.fract x = 1 / 2 then (if ⌊x⌋ % 2 = 0 then ⌊x⌋ else ⌊x⌋ + 1) else round x

/-- An index into an axis of `n` elements: negative ones count from the end. -/
def index (n : ℕ) (i : ℤ) : Except Err ℕ :=
  if 0 ≤ i ∧ i < n then .ok i.toNat else if -(n : ℤ) ≤ i ∧ i < 0 then .ok (i + n).toNat else .error .index

/-- Column and row of a direction in a map of `npix` pixels for the pole `n` (1 or -1), obstools.py 2376-2379: longitude and latitude in
radians. -/
noncomputable def project (npix : ℕ) (n l b : ℝ) : ℝ × ℝ :=
  (npix / 2 * cos l * √(1 - n * sin b) + npix / 2 - 1 / 2, -npix / 2 * n * sin l * √(1 - n * sin b) + npix / 2 - 1 / 2)

/-- The interpolation: `map_coordinates(map,[rows,columns])` at one position, or none (`interpolate=False`). -/
abbrev Interp := Option (Map → ℝ → ℝ → ℝ)

/-- `mapd[x,y]` for one position, obstools.py 2390-2392. -/
noncomputable def pixelValue (m : Map) (row col : ℝ) : Except Err ℝ :=
  match index m.rows (npRound row) with
  | .error e => .error e
  | .ok i => match index m.cols (npRound col) with
    | .error e => .error e
    | .ok j => .ok (m.val i j)

/-- The value for one direction, obstools.py 2374-2392. -/
noncomputable def mapValue (interp : Interp) (m : Map) (n : ℝ) (lb : ℝ × ℝ) : Except Err ℝ :=
  let p := project m.rows n lb.1 lb.2
  match interp with
  | some f => .ok (f m p.2 p.1)
  | none => pixelValue m p.2 p.1

/-- All values or the exception. -/
def collect {α : Type} : List (Except Err α) → Except Err (List α)
  | [] => .ok []
  | x :: l => match x with
    | .error e => .error e
    | .ok a => match collect l with
      | .error e => .error e
      | .ok as => .ok (a :: as)

/-- `a[m]`. -/
def compress {α : Type} : List Bool → List α → List α
  | m :: ms, a :: as => if m then a :: compress ms as else compress ms as
  | _, _ => []

/-- `retval[m] = val`. -/
def scatter {α : Type} : List Bool → List α → List α → List α
  | [], _, old => old
  | _ :: _, _, [] => []
  | true :: ms, v :: vs, _ :: old => v :: scatter ms vs old
  | true :: ms, [], o :: old => o :: scatter ms [] old
  | false :: ms, vs, o :: old => o :: scatter ms vs old

/-- `long` or `lat`. -/
inductive Coord
  | scalar (x : ℝ)
  | array (l : List ℝ)

/-- `array([long])*pi/180`. -/
noncomputable def Coord.radians : Coord → List ℝ
  | .scalar x => [x * π / 180]
  | .array l => l.map fun x => x * π / 180

/-- `isscalar`. -/
def Coord.isScalar : Coord → Bool
  | .scalar _ => true
  | .array _ => false

/-- What is returned: a number or an array (an element never written is `none`). -/
inductive Out
  | scalar (x : ℝ)
  | array (l : List (Option ℝ))

/-- The values of both maps, obstools.py 2371-2392. -/
noncomputable def bothValues (interp : Interp) (north south : Map) (lb : List (ℝ × ℝ)) : Except Err (List ℝ × List ℝ) :=
  let nmask := lb.map fun p => decide (0 ≤ p.2)
  match collect ((compress nmask lb).map (mapValue interp north 1)) with
  | .error e => .error e
  | .ok vn => match collect ((compress (nmask.map not) lb).map (mapValue interp south (-1))) with
    | .error e => .error e
    | .ok vs => .ok (vn, vs)

/-- The number or the array that is returned, obstools.py 2397-2407. -/
noncomputable def combine (isScalar : Bool) (lb : List (ℝ × ℝ)) (vn vs : List ℝ) : Except Err Out :=
  let nmask := lb.map fun p => decide (0 ≤ p.2)
  if isScalar then
    match vn with
    | v :: _ => .ok (.scalar v)
    | [] => match vs with
      | v :: _ => .ok (.scalar v)
      | [] => .error .assertion
  else .ok (.array (scatter (nmask.map not) (vs.map some) (scatter nmask (vn.map some) (lb.map fun _ => none))))

/-- The map of a file that is there and square, obstools.py 2357-2368. -/
def openMap (files : Text → Option Map) (name : Text) : Except Err Map :=
  match files name with
  | none => .error .io
  | some m => if m.rows = m.cols then .ok m else .error .assertion

/-- The part of a text after the last `_` of what is before the first dot, obstools.py 2341. -/
def poleName (name : Text) : Text := lower ((name.takeWhile (· ≠ '.')).reverse.takeWhile (· ≠ '_')).reverse

/-- `get_SFD_dust`, obstools.py 2270-2407.  For a single file the list `ns` is never made (`n` is), so the loop raises UnboundLocalError. -/
noncomputable def getDust (files : Text → Option Map) (long lat : Coord) (dustmap : Text) (interp : Interp) : Except Err Out :=
  if long.radians.length ≠ lat.radians.length then .error .value
  else
    match mapFile dustmap with
    | .single name => match openMap files name with
      | .error e => .error e
      | .ok _ => if poleName name = "ngp".toList ∨ poleName name = "sgp".toList then .error .unbound else .error .value
    | .pair a b => match openMap files (a ++ "ngp".toList ++ b) with
      | .error e => .error e
      | .ok north => match openMap files (a ++ "sgp".toList ++ b) with
        | .error e => .error e
        | .ok south =>
          let lb := long.radians.zip lat.radians
          match bothValues interp north south lb with
          | .error e => .error e
          | .ok (vn, vs) => combine (long.isScalar || lat.isScalar) lb vn vs

/-- `get_dust_radec`, obstools.py 2410-2413: the function it imports is commented out (coords/funcs.py 1291). -/
noncomputable def getDustRadec (_files : Text → Option Map) (_ra _dec : Coord) (_dustmap : Text) (_interp : Interp) : Except Err Out :=
  .error .import

/-! ## Specification -/

/-- The map of the hemisphere and its pole (1 north, -1 south). -/
noncomputable def hemisphere {α : Type} (north south : α) (b : ℝ) : α × ℝ := if 0 ≤ b then (north, 1) else (south, -1)

/-- The value of a direction in the map of its hemisphere. -/
noncomputable def skyValue (interp : Interp) (north south : Map) (lb : ℝ × ℝ) : Except Err ℝ :=
  mapValue interp (hemisphere north south lb.2).1 (hemisphere north south lb.2).2 lb

/-! ## Rounding -/

theorem npRound_near (x : ℝ) : |(npRound x : ℝ) - x| ≤ 1 / 2 := by
  unfold npRound
  by_cases h : Int.fract x = 1 / 2
  · rw [if_pos h]
    have h1 := Int.floor_add_fract x
    rw [h] at h1
    by_cases h2 : ⌊x⌋ % 2 = 0
    · rw [if_pos h2, abs_le]; constructor <;> linarith
    · rw [if_neg h2, abs_le]; push_cast; constructor <;> linarith
  · rw [if_neg h, abs_sub_comm]
    exact abs_sub_round x

/-- A half goes to the even neighbour. -/
theorem npRound_half (k : ℤ) : npRound (k + 1 / 2) = (if k % 2 = 0 then k else k + 1) := by
  have hf : ⌊(k : ℝ) + 1 / 2⌋ = k := by
    rw [Int.floor_eq_iff]; constructor <;> linarith
  have h : Int.fract ((k : ℝ) + 1 / 2) = 1 / 2 := by rw [Int.fract, hf]; ring
  rw [npRound, if_pos h, hf]

theorem npRound_range {N : ℕ} {x : ℝ} (h1 : -(1 / 2 : ℝ) ≤ x) (h2 : x < N - 1 / 2) : 0 ≤ npRound x ∧ npRound x < N := by
  have h := abs_le.1 (npRound_near x)
  constructor
  · rcases eq_or_lt_of_le h1 with h3 | h3
    · have e : x = ((-1 : ℤ) : ℝ) + 1 / 2 := by rw [← h3]; push_cast; ring
      rw [e, npRound_half]; decide
    · have : (-1 : ℝ) < npRound x := by linarith
      have : (-1 : ℤ) < npRound x := by exact_mod_cast this
      omega
  · have : (npRound x : ℝ) < N := by linarith
    exact_mod_cast this

theorem npRound_top (N : ℕ) : npRound ((N : ℝ) - 1 / 2) = (if N % 2 = 0 then (N : ℤ) else N - 1) := by
  have e : (N : ℝ) - 1 / 2 = (((N : ℤ) - 1 : ℤ) : ℝ) + 1 / 2 := by push_cast; ring
  rw [e, npRound_half]
  split_ifs <;> omega

/-! ## The projection -/

theorem root_sq (n b : ℝ) (hn : n = 1 ∨ n = -1) : √(1 - n * sin b) ^ 2 = 1 - n * sin b := by
  apply sq_sqrt
  have h1 := sin_le_one b
  have h2 := neg_one_le_sin b
  rcases hn with rfl | rfl <;> linarith

/-- C167.  Equal areas: the distance of a direction from the centre of the map grows as the area of the cap around the pole. -/
theorem equal_area (N : ℕ) (n l b : ℝ) (hn : n = 1 ∨ n = -1) :
    ((project N n l b).1 - ((N : ℝ) / 2 - 1 / 2)) ^ 2 + ((project N n l b).2 - ((N : ℝ) / 2 - 1 / 2)) ^ 2 = ((N : ℝ) / 2) ^ 2 * (1 - n * sin b) := by
  have hs := root_sq n b hn
  have hn2 : n ^ 2 = 1 := by rcases hn with rfl | rfl <;> norm_num
  have ht := sin_sq_add_cos_sq l
  simp only [project]
  generalize √(1 - n * sin b) = r at hs ⊢
  calc _ = ((N : ℝ) / 2) ^ 2 * r ^ 2 * (n ^ 2 * sin l ^ 2 + cos l ^ 2) := by ring
    _ = _ := by rw [hs, hn2, one_mul, ht, mul_one]

/-- The pole is in the middle. -/
theorem pole_centre (N : ℕ) (n l b : ℝ) (hb : n * sin b = 1) : project N n l b = ((N : ℝ) / 2 - 1 / 2, (N : ℝ) / 2 - 1 / 2) := by
  simp [project, hb]

/-- C167.  Directions with the same position in the map are the same: equal latitude, and equal longitude unless both are the pole. -/
theorem project_inj {N : ℕ} (hN : 0 < N) {n l b l' b' : ℝ} (hn : n = 1 ∨ n = -1) (hb : |b| ≤ π / 2) (hb' : |b'| ≤ π / 2)
    (h : project N n l b = project N n l' b') : b = b' ∧ (n * sin b ≠ 1 → cos l = cos l' ∧ sin l = sin l') := by
  have hN' : (N : ℝ) / 2 ≠ 0 := by positivity
  have e1 := equal_area N n l b hn
  have e2 := equal_area N n l' b' hn
  rw [h, e2] at e1
  have e3 : n * sin b = n * sin b' := by
    have := mul_left_cancel₀ (pow_ne_zero 2 hN') e1
    linarith
  have hn0 : n ≠ 0 := by rcases hn with rfl | rfl <;> norm_num
  have e4 : sin b = sin b' := mul_left_cancel₀ hn0 e3
  have hbb := injOn_sin (abs_le.1 hb) (abs_le.1 hb') e4
  refine ⟨hbb, fun hp => ?_⟩
  have hr : √(1 - n * sin b) ≠ 0 := by
    intro h0
    have := root_sq n b hn
    rw [h0] at this
    apply hp
    linarith
  have hx := congrArg Prod.fst h
  have hy := congrArg Prod.snd h
  simp only [project] at hx hy
  rw [← e3] at hx hy
  constructor
  · have : (N : ℝ) / 2 * √(1 - n * sin b) * cos l = N / 2 * √(1 - n * sin b) * cos l' := by linarith
    exact mul_left_cancel₀ (mul_ne_zero hN' hr) this
  · have : (N : ℝ) / 2 * √(1 - n * sin b) * n * sin l = N / 2 * √(1 - n * sin b) * n * sin l' := by
      have h2 : -(N : ℝ) / 2 * n * sin l * √(1 - n * sin b) = -(N : ℝ) / 2 * n * sin l' * √(1 - n * sin b) := by linarith
      have h3 : (N : ℝ) / 2 * √(1 - n * sin b) * n * sin l = -(-(N : ℝ) / 2 * n * sin l * √(1 - n * sin b)) := by ring
      rw [h3, h2]; ring
    exact mul_left_cancel₀ (mul_ne_zero (mul_ne_zero hN' hr) hn0) this

/-- One axis of the map: `c` is a cosine or sine, `r` the square root. -/
theorem axis_range {N : ℕ} {c r : ℝ} (hc1 : -1 ≤ c) (hc2 : c ≤ 1) (hr0 : 0 ≤ r) (hr1 : r ≤ 1) :
    -(1 / 2 : ℝ) ≤ N / 2 * (c * r) + N / 2 - 1 / 2 ∧ (N : ℝ) / 2 * (c * r) + N / 2 - 1 / 2 ≤ N - 1 / 2 ∧
    (0 < N → ((N : ℝ) / 2 * (c * r) + N / 2 - 1 / 2 = N - 1 / 2 ↔ c = 1 ∧ r = 1)) := by
  have hN : (0 : ℝ) ≤ N / 2 := by positivity
  have h1 : -1 ≤ c * r := by nlinarith
  have h2 : c * r ≤ 1 := by nlinarith
  refine ⟨by nlinarith, by nlinarith, fun hN0 => ?_⟩
  have hN' : (0 : ℝ) < N / 2 := by positivity
  constructor
  · intro h
    have h3 : (N : ℝ) / 2 * (c * r) = N / 2 * 1 := by linarith
    have h4 : c * r = 1 := mul_left_cancel₀ hN'.ne' h3
    have hr : 0 < r := by
      rcases eq_or_lt_of_le hr0 with h5 | h5
      · rw [← h5] at h4; simp at h4
      · exact h5
    have hc : c = 1 := by
      by_contra hne
      have : c < 1 := lt_of_le_of_ne hc2 hne
      have : c * r < 1 * r := mul_lt_mul_of_pos_right this hr
      linarith
    refine ⟨hc, ?_⟩
    rw [hc] at h4; linarith
  · rintro ⟨rfl, rfl⟩; ring

theorem index_ok {n : ℕ} {i : ℤ} (h0 : 0 ≤ i) (h1 : i < n) : index n i = .ok i.toNat := by rw [index, if_pos ⟨h0, h1⟩]

theorem index_top (n : ℕ) (_ : 0 < n) : index n (n : ℤ) = .error .index := by
  rw [index, if_neg (by omega), if_neg (by omega)]

/-- The index of one axis: in the map unless the direction is exactly on the far edge of a map with an even number of pixels. -/
theorem axis_index {N : ℕ} (hN : 0 < N) {c r : ℝ} (hc1 : -1 ≤ c) (hc2 : c ≤ 1) (hr0 : 0 ≤ r) (hr1 : r ≤ 1) {x : ℝ}
    (hx : x = N / 2 * (c * r) + N / 2 - 1 / 2) :
    (N % 2 = 0 ∧ c = 1 ∧ r = 1 → index N (npRound x) = .error .index) ∧
    (¬ (N % 2 = 0 ∧ c = 1 ∧ r = 1) → ∃ i : ℕ, index N (npRound x) = .ok i ∧ i < N ∧ |(i : ℝ) - x| ≤ 1 / 2) := by
  obtain ⟨h1, h2, h3⟩ := axis_range (N := N) hc1 hc2 hr0 hr1
  rw [← hx] at h1 h2 h3
  constructor
  · rintro ⟨he, hcr⟩
    rw [(h3 hN).2 hcr, npRound_top, if_pos he, index_top N hN]
  · intro hne
    have hr : 0 ≤ npRound x ∧ npRound x < N := by
      rcases eq_or_lt_of_le h2 with h4 | h4
      · have he : N % 2 ≠ 0 := fun he => hne ⟨he, (h3 hN).1 h4⟩
        rw [h4, npRound_top, if_neg he]; omega
      · exact npRound_range h1 h4
    refine ⟨(npRound x).toNat, index_ok hr.1 hr.2, by omega, ?_⟩
    have : (((npRound x).toNat : ℕ) : ℝ) = (npRound x : ℝ) := by
      have := Int.toNat_of_nonneg hr.1
      exact_mod_cast this
    rw [this]
    exact npRound_near x

/-- The root is at most 1 in the map's own hemisphere. -/
theorem root_le {n b : ℝ} (hb : 0 ≤ n * sin b) : 0 ≤ √(1 - n * sin b) ∧ √(1 - n * sin b) ≤ 1 ∧ (√(1 - n * sin b) = 1 ↔ n * sin b = 0) := by
  refine ⟨sqrt_nonneg _, ?_, ?_⟩
  · exact sqrt_le_iff.2 ⟨zero_le_one, by linarith⟩
  · rw [sqrt_eq_one]; constructor <;> intro h <;> linarith

/-- C167.  Without interpolation the value is that of the pixel nearest to the direction, for every direction of the hemisphere, except exactly
on the equator at the two longitudes where the circle touches the far edges of a map with an even number of pixels: there IndexError. -/
theorem nearest_pixel {m : Map} (hm : m.rows = m.cols) (h0 : 0 < m.rows) {n l b : ℝ} (hn : n = 1 ∨ n = -1) (hb : 0 ≤ n * sin b) :
    (m.rows % 2 = 0 ∧ sin b = 0 ∧ (cos l = 1 ∨ n * sin l = -1) → mapValue none m n (l, b) = .error .index) ∧
    (¬ (m.rows % 2 = 0 ∧ sin b = 0 ∧ (cos l = 1 ∨ n * sin l = -1)) → ∃ i j : ℕ, i < m.rows ∧ j < m.cols ∧
      mapValue none m n (l, b) = .ok (m.val i j) ∧ |(i : ℝ) - (project m.rows n l b).2| ≤ 1 / 2 ∧ |(j : ℝ) - (project m.rows n l b).1| ≤ 1 / 2) := by
  have hn0 : n ≠ 0 := by rcases hn with rfl | rfl <;> norm_num
  obtain ⟨hr0, hr1, hre⟩ := root_le hb
  have hsb : √(1 - n * sin b) = 1 ↔ sin b = 0 := by rw [hre, mul_eq_zero]; simp [hn0]
  have hs1 : -1 ≤ -(n * sin l) ∧ -(n * sin l) ≤ 1 := by
    have h1 := sin_le_one l
    have h2 := neg_one_le_sin l
    rcases hn with rfl | rfl <;> constructor <;> linarith
  have hrow := axis_index h0 hs1.1 hs1.2 hr0 hr1 (x := (project m.rows n l b).2) (by simp only [project]; ring)
  have hcol := axis_index h0 (neg_one_le_cos l) (cos_le_one l) hr0 hr1 (x := (project m.rows n l b).1) (by simp only [project]; ring)
  have hsl : -(n * sin l) = 1 ↔ n * sin l = -1 := by constructor <;> intro h <;> linarith
  rw [hsb, hsl] at hrow
  rw [hsb] at hcol
  simp only [mapValue, pixelValue]
  constructor
  · rintro ⟨he, hb0, hc | hs⟩
    · by_cases hs : n * sin l = -1
      · rw [hrow.1 ⟨he, hs, hb0⟩]
      · obtain ⟨i, hi, -, -⟩ := hrow.2 (fun h => hs h.2.1)
        simp only [hi, ← hm, hcol.1 ⟨he, hc, hb0⟩]
    · rw [hrow.1 ⟨he, hs, hb0⟩]
  · intro hne
    obtain ⟨i, hi, hi1, hi2⟩ := hrow.2 (fun h => hne ⟨h.1, h.2.2, .inr h.2.1⟩)
    obtain ⟨j, hj, hj1, hj2⟩ := hcol.2 (fun h => hne ⟨h.1, h.2.2, .inl h.2.1⟩)
    refine ⟨i, j, hi1, hm ▸ hj1, ?_, hi2, hj2⟩
    simp only [hi, ← hm, hj]

/-! ## The whole call -/

theorem collect_ok {α β : Type} {f : β → Except Err α} {l : List β} {vs : List α} : collect (l.map f) = .ok vs ↔ l.map f = vs.map .ok := by
  induction l generalizing vs with
  | nil => cases vs <;> simp [collect]
  | cons b l ih =>
    simp only [List.map_cons, collect]
    cases hb : f b with
    | error e => cases vs <;> simp
    | ok a =>
      simp only
      cases hc : collect (l.map f) with
      | error e =>
        simp only [reduceCtorEq, false_iff]
        intro h
        cases vs with
        | nil => simp at h
        | cons v vs =>
          simp only [List.map_cons, List.cons.injEq] at h
          have := ih.2 h.2
          rw [hc] at this
          simp at this
      | ok as =>
        have := ih.1 hc
        cases vs with
        | nil => simp
        | cons v vs =>
          simp only [Except.ok.injEq, List.cons.injEq, List.map_cons]
          constructor
          · rintro ⟨rfl, rfl⟩; exact ⟨rfl, this⟩
          · rintro ⟨rfl, h⟩
            refine ⟨rfl, ?_⟩
            have h2 := this.symm.trans h
            exact List.map_injective_iff.2 (fun x y hxy => Except.ok.inj hxy) h2

theorem collect_error {α β : Type} {f : β → Except Err α} {l : List β} {e : Err} (h : collect (l.map f) = .error e) :
    ∃ b ∈ l, f b = .error e := by
  induction l with
  | nil => simp [collect] at h
  | cons b l ih =>
    simp only [List.map_cons, collect] at h
    cases hb : f b with
    | error e' => rw [hb] at h; simp only [Except.error.injEq] at h; exact ⟨b, by simp, by rw [hb, h]⟩
    | ok a =>
      rw [hb] at h
      simp only at h
      cases hc : collect (l.map f) with
      | error e' =>
        rw [hc] at h
        simp only [Except.error.injEq] at h
        obtain ⟨x, hx, hf⟩ := ih (h ▸ hc)
        exact ⟨x, by simp [hx], hf⟩
      | ok as => rw [hc] at h; simp at h

/-- Selecting by a mask, computing, and putting back. -/
theorem scatter_both {α β : Type} (f g : β → Except Err α) (p : β → Bool) : ∀ (l : List β) (vf vg : List α),
    (compress (l.map p) l).map f = vf.map .ok → (compress ((l.map p).map not) l).map g = vg.map .ok →
    ∃ vals : List α, l.map (fun b => if p b then f b else g b) = vals.map .ok ∧
      scatter ((l.map p).map not) (vg.map some) (scatter (l.map p) (vf.map some) (l.map fun _ => none)) = vals.map some
  | [], vf, vg, _, _ => ⟨[], rfl, rfl⟩
  | b :: l, vf, vg, hf, hg => by
    cases hp : p b with
    | true =>
      simp only [List.map_cons, hp, compress, if_true, Bool.not_true, Bool.false_eq_true, if_false] at hf hg
      cases vf with
      | nil => simp at hf
      | cons v vf =>
        simp only [List.map_cons, List.cons.injEq] at hf
        obtain ⟨vals, h1, h2⟩ := scatter_both f g p l vf vg hf.2 hg
        refine ⟨v :: vals, ?_, ?_⟩
        · simp only [List.map_cons, hp, if_true, hf.1, h1]
        · simp only [List.map_cons, hp, Bool.not_true, scatter, h2]
    | false =>
      simp only [List.map_cons, hp, compress, if_true, Bool.not_false, Bool.false_eq_true, if_false] at hf hg
      cases vg with
      | nil => simp at hg
      | cons v vg =>
        simp only [List.map_cons, List.cons.injEq] at hg
        obtain ⟨vals, h1, h2⟩ := scatter_both f g p l vf vg hf hg.2
        refine ⟨v :: vals, ?_, ?_⟩
        · simp only [List.map_cons, hp, Bool.false_eq_true, if_false, hg.1, h1]
        · simp only [List.map_cons, hp, Bool.not_false, scatter, h2]

theorem mem_compress {β : Type} (p : β → Bool) : ∀ (l : List β) (b : β), b ∈ compress (l.map p) l ↔ b ∈ l ∧ p b = true
  | [], b => by simp [compress]
  | a :: l, b => by
    rw [List.map_cons, compress]
    cases hp : p a with
    | true =>
      simp only [if_true, List.mem_cons, mem_compress p l b]
      constructor
      · rintro (rfl | ⟨h1, h2⟩)
        · exact ⟨.inl rfl, hp⟩
        · exact ⟨.inr h1, h2⟩
      · rintro ⟨rfl | h1, h2⟩
        · exact .inl rfl
        · exact .inr ⟨h1, h2⟩
    | false =>
      simp only [Bool.false_eq_true, if_false, List.mem_cons, mem_compress p l b]
      constructor
      · rintro ⟨h1, h2⟩; exact ⟨.inr h1, h2⟩
      · rintro ⟨rfl | h1, h2⟩
        · rw [hp] at h2; simp at h2
        · exact ⟨h1, h2⟩

theorem skyValue_eq (interp : Interp) (north south : Map) (lb : ℝ × ℝ) : skyValue interp north south lb =
    if decide (0 ≤ lb.2) = true then mapValue interp north 1 lb else mapValue interp south (-1) lb := by
  by_cases h : 0 ≤ lb.2 <;> simp [skyValue, hemisphere, h]

/-- C167.  With interpolation the value is that of the interpolated map at row `-n sin(l) r` and column `cos(l) r` from its centre, `r` being the square root of `1 - n sin(b)`
in units of half the map. -/
theorem interpolated_value (f : Map → ℝ → ℝ → ℝ) (m : Map) (n l b : ℝ) :
    mapValue (some f) m n (l, b) = .ok (f m ((m.rows : ℝ) / 2 - 1 / 2 - n * sin l * ((m.rows : ℝ) / 2 * √(1 - n * sin b)))
      ((m.rows : ℝ) / 2 - 1 / 2 + cos l * ((m.rows : ℝ) / 2 * √(1 - n * sin b)))) := by
  simp only [mapValue, project]
  congr 2 <;> ring

/-- C167.  For arrays the value at each position is that of the direction at this position, in the map of its hemisphere (latitude 0 is in the
northern one), however the hemispheres are mixed; an exception is one a direction of the list raises. -/
theorem array_exact {files : Text → Option Map} {dustmap a b : Text} {north south : Map} (hf : mapFile dustmap = .pair a b)
    (hn : files (a ++ "ngp".toList ++ b) = some north) (hs : files (a ++ "sgp".toList ++ b) = some south)
    (hnq : north.rows = north.cols) (hsq : south.rows = south.cols) (l bs : List ℝ) (hl : l.length = bs.length) (interp : Interp) :
    (∃ vals : List ℝ, getDust files (.array l) (.array bs) dustmap interp = .ok (.array (vals.map some)) ∧
      ((Coord.array l).radians.zip (Coord.array bs).radians).map (skyValue interp north south) = vals.map .ok) ∨
    (∃ e, getDust files (.array l) (.array bs) dustmap interp = .error e ∧
      ∃ p ∈ (Coord.array l).radians.zip (Coord.array bs).radians, skyValue interp north south p = .error e) := by
  set lb := (Coord.array l).radians.zip (Coord.array bs).radians with hlb
  have hlen : (Coord.array l).radians.length = (Coord.array bs).radians.length := by simp [Coord.radians, hl]
  have e : getDust files (.array l) (.array bs) dustmap interp = match bothValues interp north south lb with
      | .error e => .error e
      | .ok (vn, vs) => combine false lb vn vs := by
    simp only [getDust, hlen, ne_eq, not_true, if_false, hf, openMap, hn, hs, hnq, hsq, if_true, Coord.isScalar, Bool.or_self, ← hlb]
  rw [e]
  simp only [bothValues]
  cases h1 : collect ((compress (lb.map fun p => decide (0 ≤ p.2)) lb).map (mapValue interp north 1)) with
  | error e =>
    right
    refine ⟨e, rfl, ?_⟩
    obtain ⟨p, hp, hv⟩ := collect_error h1
    rw [mem_compress] at hp
    exact ⟨p, hp.1, by rw [skyValue_eq, if_pos hp.2, hv]⟩
  | ok vn =>
    simp only
    cases h2 : collect ((compress ((lb.map fun p => decide (0 ≤ p.2)).map not) lb).map (mapValue interp south (-1))) with
    | error e =>
      right
      refine ⟨e, rfl, ?_⟩
      obtain ⟨p, hp, hv⟩ := collect_error h2
      rw [List.map_map, mem_compress] at hp
      refine ⟨p, hp.1, ?_⟩
      rw [skyValue_eq, if_neg, hv]
      intro h
      have := hp.2
      simp only [Function.comp, h] at this
      simp at this
    | ok vs =>
      left
      obtain ⟨vals, h3, h4⟩ := scatter_both _ _ _ _ _ _ (collect_ok.1 h1) (collect_ok.1 h2)
      refine ⟨vals, ?_, ?_⟩
      · simp only [combine, Bool.false_eq_true, if_false, h4]
      · rw [← h3]
        exact List.map_congr_left (fun p _ => skyValue_eq _ _ _ _)

/-- C167.  For a number the value is that of the direction. -/
theorem scalar_exact {files : Text → Option Map} {dustmap a b : Text} {north south : Map} (hf : mapFile dustmap = .pair a b)
    (hn : files (a ++ "ngp".toList ++ b) = some north) (hs : files (a ++ "sgp".toList ++ b) = some south)
    (hnq : north.rows = north.cols) (hsq : south.rows = south.cols) (l bl : ℝ) (interp : Interp) :
    getDust files (.scalar l) (.scalar bl) dustmap interp = (skyValue interp north south (l * π / 180, bl * π / 180)).map .scalar := by
  have e : getDust files (.scalar l) (.scalar bl) dustmap interp =
      match bothValues interp north south [(l * π / 180, bl * π / 180)] with
      | .error e => .error e
      | .ok (vn, vs) => combine true [(l * π / 180, bl * π / 180)] vn vs := by
    simp only [getDust, Coord.radians, List.length_singleton, ne_eq, not_true, if_false, hf, openMap, hn, hs, hnq, hsq, if_true, Coord.isScalar, Bool.or_self,
      List.zip_cons_cons, List.zip_nil_right]
  rw [e, skyValue_eq]
  by_cases h : 0 ≤ bl * π / 180
  · simp only [bothValues, List.map_cons, List.map_nil, h, decide_true, compress, if_true, Bool.not_true, Bool.false_eq_true, if_false, collect]
    cases mapValue interp north 1 (l * π / 180, bl * π / 180) <;> rfl
  · simp only [bothValues, List.map_cons, List.map_nil, h, decide_false, compress, if_true, Bool.not_false, Bool.false_eq_true, if_false, collect]
    cases mapValue interp south (-1) (l * π / 180, bl * π / 180) <;> rfl

/-- C167.  Longitudes and latitudes of different numbers raise ValueError; a number goes with an array of one element, and gives a number. -/
theorem lengths (files : Text → Option Map) (dustmap : Text) (interp : Interp) :
    (∀ l bs : List ℝ, l.length ≠ bs.length → getDust files (.array l) (.array bs) dustmap interp = .error .value) ∧
    (∀ (l : ℝ) (bs : List ℝ), bs.length ≠ 1 → getDust files (.scalar l) (.array bs) dustmap interp = .error .value ∧
      getDust files (.array bs) (.scalar l) dustmap interp = .error .value) ∧
    (∀ l b : ℝ, getDust files (.scalar l) (.array [b]) dustmap interp = getDust files (.scalar l) (.scalar b) dustmap interp ∧
      getDust files (.array [l]) (.scalar b) dustmap interp = getDust files (.scalar l) (.scalar b) dustmap interp) := by
  refine ⟨fun l bs h => ?_, fun l bs h => ⟨?_, ?_⟩, fun l b => ⟨rfl, rfl⟩⟩
  · rw [getDust, if_pos (by simpa [Coord.radians] using h)]
  · rw [getDust, if_pos (by simpa [Coord.radians] using fun h' => h h'.symm)]
  · rw [getDust, if_pos (by simpa [Coord.radians] using h)]

/-- C167.  The documented use of a single file never works. -/
theorem single_file_fails (files : Text → Option Map) (long lat : Coord) (dustmap : Text) (interp : Interp) {name : Text}
    (h : mapFile dustmap = .single name) : ∃ e, getDust files long lat dustmap interp = .error e := by
  unfold getDust
  split_ifs
  · exact ⟨_, rfl⟩
  · rw [h]
    simp only
    cases openMap files name with
    | error e => exact ⟨e, rfl⟩
    | ok m =>
      simp only
      split_ifs
      · exact ⟨_, rfl⟩
      · exact ⟨_, rfl⟩

theorem parse_single {t : Text} (h : '%' ∉ t) : parseFile t = .single t := by
  induction t with
  | nil => rfl
  | cons c t ih =>
    simp only [List.mem_cons, not_or] at h
    rw [parseFile, if_neg (fun h' => h.1 h'.1.symm), ih h.2]

theorem parse_pair {a b : Text} (h : '%' ∉ a) : parseFile (a ++ "%s".toList ++ b) = .pair a b := by
  induction a with
  | nil => rfl
  | cons c t ih =>
    simp only [List.mem_cons, not_or] at h
    rw [List.cons_append, List.cons_append, parseFile, if_neg (fun h' => h.1 h'.1.symm), ih h.2]

/-- C167.  The names of the maps, in either case, stand for the SFD files; a name with `%s` is the pattern of the two files, and one
without is the file itself. -/
theorem map_names (t : Text) :
    (lower t = "ebv".toList → mapFile t = .pair "SFD_dust_4096_".toList ".fits".toList) ∧
    (lower t = "i100".toList → mapFile t = .pair "SFD_i100_4096_".toList ".fits".toList) ∧
    (lower t = "x".toList → mapFile t = .pair "SFD_xmap_".toList ".fits".toList) ∧
    (lower t = "t".toList → mapFile t = .pair "SFD_temp_".toList ".fits".toList) ∧
    (lower t = "mask".toList → mapFile t = .pair "SFD_mask_4096_".toList ".fits".toList) ∧
    (6 < t.length → ∀ a b, t = a ++ "%s".toList ++ b → '%' ∉ a → mapFile t = .pair a b) ∧
    (6 < t.length → '%' ∉ t → mapFile t = .single t) := by
  have other : 6 < t.length → mapFile t = parseFile t := by
    intro h
    have hl : (lower t).length = t.length := by simp [lower]
    have ne : ∀ s : Text, s.length ≤ 6 → lower t ≠ s := by
      rintro s hs rfl; omega
    simp only [mapFile, ne _ (show ("ebv".toList : Text).length ≤ 6 by decide), ne _ (show ("eb-v".toList : Text).length ≤ 6 by decide),
      ne _ (show ("e(b-v)".toList : Text).length ≤ 6 by decide), ne _ (show ("i100".toList : Text).length ≤ 6 by decide),
      ne _ (show ("x".toList : Text).length ≤ 6 by decide), ne _ (show ("t".toList : Text).length ≤ 6 by decide),
      ne _ (show ("mask".toList : Text).length ≤ 6 by decide), or_self, if_false]
  refine ⟨?_, ?_, ?_, ?_, ?_, ?_, ?_⟩
  · intro h; simp [mapFile, h]
  · intro h; simp [mapFile, h]
  · intro h; simp [mapFile, h]
  · intro h; simp [mapFile, h]
  · intro h; simp [mapFile, h]
  · intro h a b e ha; rw [other h, e]; exact parse_pair ha
  · intro h ha; rw [other h]; exact parse_single ha

/-- C167.  With the SFD maps (4096 pixels) the galactic centre has no value without interpolation. -/
theorem galactic_centre {files : Text → Option Map} {dustmap a b : Text} {north south : Map} (hf : mapFile dustmap = .pair a b)
    (hn : files (a ++ "ngp".toList ++ b) = some north) (hs : files (a ++ "sgp".toList ++ b) = some south)
    (hnq : north.rows = north.cols) (hsq : south.rows = south.cols) (h : north.rows = 4096) :
    getDust files (.scalar 0) (.scalar 0) dustmap none = .error .index := by
  rw [scalar_exact hf hn hs hnq hsq, skyValue_eq]
  simp only [zero_mul, zero_div, le_refl, decide_true, if_true]
  rw [(nearest_pixel hnq (by omega) (n := 1) (.inl rfl) (by simp)).1 ⟨by omega, by simp, .inl (by simp)⟩]
  rfl

/-- C167.  From right ascension and declination there is never a value. -/
theorem radec_fails (files : Text → Option Map) (ra dec : Coord) (dustmap : Text) (interp : Interp) :
    getDustRadec files ra dec dustmap interp = .error .import := rfl

/-- A pair of maps and two directions in different hemispheres. -/
noncomputable def sampleMap (v : ℝ) : Map := ⟨5, 5, fun _ _ => v⟩

/-- The files of the sample maps. -/
noncomputable def sampleFiles (t : Text) : Option Map :=
  if t = "SFD_dust_4096_".toList ++ "ngp".toList ++ ".fits".toList then some (sampleMap 1) else some (sampleMap 2)

example : mapFile "EBV".toList = .pair "SFD_dust_4096_".toList ".fits".toList ∧
    sampleFiles ("SFD_dust_4096_".toList ++ "ngp".toList ++ ".fits".toList) = some (sampleMap 1) ∧
    sampleFiles ("SFD_dust_4096_".toList ++ "sgp".toList ++ ".fits".toList) = some (sampleMap 2) ∧ (sampleMap 1).rows = (sampleMap 1).cols ∧
    0 < (sampleMap 1).rows := by
  refine ⟨by decide, ?_, ?_, rfl, by simp [sampleMap]⟩
  · rw [sampleFiles, if_pos rfl]
  · rw [sampleFiles, if_neg (by decide)]

example : bothValues (some fun m _ _ => m.val 0 0) (sampleMap 1) (sampleMap 2) [(0, -1), (0, 0), (2, 1)] = .ok ([1, 1], [2]) ∧
    combine false [(0, -1), (0, 0), (2, 1)] [1, 1] [2] = .ok (.array [some 2, some 1, some 1]) := by
  have e1 : ¬ (1 : ℝ) ≤ 0 := by norm_num
  simp [e1, bothValues, combine, compress, collect, mapValue, scatter, sampleMap]

end Verif.DustMap
