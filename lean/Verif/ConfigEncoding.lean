import Mathlib.Data.List.Basic
import Mathlib.Tactic.SplitIfs
import Mathlib.Tactic.Linarith

/-!
# Encodings of configuration files (astropysics/external/configobj.py 28-71, 1385-1512, 2095-2113) (C191)

`_handle_bom`, `_decode` and the end of `write`, for files on a little-endian computer.  Bytes and 16-bit units are numbers.  UTF-16 is concrete (a file with an odd number of bytes
is UnicodeDecodeError; pairs of surrogates are two units), UTF-8 and other 8-bit encodings are a parameter.
-/

namespace Verif.ConfigEncoding

inductive Err
  | decode
  | attribute
  deriving DecidableEq

abbrev Bytes := List ℕ

/-- The encoding of a ConfigObj: `utf8`, `utf16`, `utf16be`, `utf16le` stand for all their names in `BOM_LIST`. -/
inductive Enc
  | utf8
  | utf16
  | utf16be
  | utf16le
  | other (name : String)
  deriving DecidableEq

def bom8 : Bytes := [0xEF, 0xBB, 0xBF]
def bomLE : Bytes := [0xFF, 0xFE]
def bomBE : Bytes := [0xFE, 0xFF]

/-- Codecs of 8-bit encodings: text (units) to bytes and back. -/
structure Codec where
  enc : List ℕ → Bytes
  dec : Bytes → Option (List ℕ)

/-- UTF-16, low byte first. -/
def encLE : List ℕ → Bytes
  | [] => []
  | u :: t => u % 256 :: u / 256 :: encLE t

/-- UTF-16, high byte first. -/
def encBE : List ℕ → Bytes
  | [] => []
  | u :: t => u / 256 :: u % 256 :: encBE t

def decLE : Bytes → Option (List ℕ)
  | [] => some []
  | [_] => none
  | a :: b :: t => (decLE t).map (fun r => (a + 256 * b) :: r)

def decBE : Bytes → Option (List ℕ)
  | [] => some []
  | [_] => none
  | a :: b :: t => (decBE t).map (fun r => (256 * a + b) :: r)

/-- `bytes.decode('utf_16')`: the byte order mark is used and removed; without it the order of the computer. -/
def dec16 (b : Bytes) : Option (List ℕ) := if bomLE.isPrefixOf b then decLE (b.drop 2) else if bomBE.isPrefixOf b then decBE (b.drop 2) else decLE b

/-- `bytes.decode(encoding)`. -/
def decodeWith (C8 : Codec) (C : String → Codec) : Enc → Bytes → Option (List ℕ)
  | .utf8, b => C8.dec b
  | .utf16, b => dec16 b
  | .utf16be, b => decBE b
  | .utf16le, b => decLE b
  | .other n, b => (C n).dec b

/-- `text.encode(encoding)`. -/
def encodeWith (C8 : Codec) (C : String → Codec) : Enc → List ℕ → Bytes
  | .utf8, t => C8.enc t
  | .utf16, t => bomLE ++ encLE t
  | .utf16be, t => encBE t
  | .utf16le, t => encLE t
  | .other n, t => (C n).enc t

/-- Text as the parser gets it: bytes that were not decoded, or text. -/
inductive Text
  | bytes (b : Bytes)
  | units (u : List ℕ)
  deriving DecidableEq

/-- What is known after reading. -/
structure Read where
  text : Text
  enc : Option Enc
  bom : Bool
  deriving DecidableEq

def orDecode {α : Type} : Option α → Except Err α
  | some a => .ok a
  | none => .error .decode

/-- `_handle_bom`, configobj.py 1385-1483, for the content of a file. -/
def handleBom (C8 : Codec) (C : String → Codec) (enc : Option Enc) (b : Bytes) : Except Err Read :=
  match enc with
  | some (.other n) => (orDecode (decodeWith C8 C (.other n) b)).map fun u => ⟨.units u, enc, false⟩
  | some .utf16 =>
    if bomBE.isPrefixOf b then (orDecode (decodeWith C8 C .utf16be b)).map fun u => ⟨.units u, enc, false⟩
    else (orDecode (decodeWith C8 C .utf16 b)).map fun u => ⟨.units u, enc, false⟩
  | some e =>
    let bom := if e = .utf8 then bom8 else if e = .utf16be then bomBE else bomLE
    if bom.isPrefixOf b then (orDecode (decodeWith C8 C e (b.drop bom.length))).map fun u => ⟨.units u, enc, true⟩
    else (orDecode (decodeWith C8 C e b)).map fun u => ⟨.units u, enc, false⟩
  | none =>
    if bom8.isPrefixOf b then .ok ⟨.bytes (b.drop 3), none, true⟩
    else if bomBE.isPrefixOf b then (orDecode (decodeWith C8 C .utf16be b)).map fun u => ⟨.units u, some .utf16, false⟩
    else if bomLE.isPrefixOf b then (orDecode (decodeWith C8 C .utf16 b)).map fun u => ⟨.units u, some .utf16, false⟩
    else .ok ⟨.bytes b, none, false⟩

/-- A list of lines with the encoding UTF-16: `infile.startswith` of a list, configobj.py 1430. -/
def handleLines (enc : Option Enc) : Except Err Unit := if enc = some .utf16 then .error .attribute else .ok ()

/-- The end of `write` to a file, configobj.py 2095-2113; `text` are the lines joined with the newline character. -/
def write (C8 : Codec) (C : String → Codec) (r : Read) : Bytes :=
  let out := match r.text, r.enc with
    | .bytes b, _ => b
    | .units u, none => C8.enc u
    | .units u, some e => encodeWith C8 C e u
  let out := if r.bom && (r.enc = none || r.enc = some .utf8) then bom8 ++ out else out
  if out.getLast? = some 10 then out else out ++ [10]

/-! ## Proofs -/

theorem decLE_encLE : ∀ t, decLE (encLE t) = some t
  | [] => rfl
  | u :: t => by
    rw [encLE, decLE, decLE_encLE t]
    simp only [Option.map_some, Option.some.injEq, List.cons.injEq, and_true]
    omega

theorem decBE_encBE : ∀ t, decBE (encBE t) = some t
  | [] => rfl
  | u :: t => by
    rw [encBE, decBE, decBE_encBE t]
    simp only [Option.map_some, Option.some.injEq, List.cons.injEq, and_true]
    omega

theorem encLE_length : ∀ t, (encLE t).length = 2 * t.length
  | [] => rfl
  | u :: t => by rw [encLE, List.length_cons, List.length_cons, encLE_length t, List.length_cons]; omega

theorem encBE_length : ∀ t, (encBE t).length = 2 * t.length
  | [] => rfl
  | u :: t => by rw [encBE, List.length_cons, List.length_cons, encBE_length t, List.length_cons]; omega

theorem decLE_none : ∀ b : Bytes, decLE b = none ↔ b.length % 2 = 1
  | [] => by simp [decLE]
  | [_] => by simp [decLE]
  | x :: y :: t => by
    rw [decLE, Option.map_eq_none_iff, decLE_none t]
    simp only [List.length_cons]; omega

theorem decBE_none : ∀ b : Bytes, decBE b = none ↔ b.length % 2 = 1
  | [] => by simp [decBE]
  | [_] => by simp [decBE]
  | x :: y :: t => by
    rw [decBE, Option.map_eq_none_iff, decBE_none t]
    simp only [List.length_cons]; omega

theorem encLE_append : ∀ a b, encLE (a ++ b) = encLE a ++ encLE b
  | [], _ => rfl
  | u :: t, b => by rw [List.cons_append, encLE, encLE, encLE_append t b]; rfl

theorem encBE_append : ∀ a b, encBE (a ++ b) = encBE a ++ encBE b
  | [], _ => rfl
  | u :: t, b => by rw [List.cons_append, encBE, encBE, encBE_append t b]; rfl

/-- C191.  Reading without a given encoding.  A file without byte order mark is left as bytes; the mark of UTF-8 is removed, remembered and the rest left as bytes; UTF-16 with the mark of this
computer is decoded without it.  Defect: with the mark of the other order the mark stays as the first character of the text. -/
theorem read_unspecified (C8 : Codec) (C : String → Codec) (b : Bytes) (t : List ℕ) :
    (b.take 3 ≠ bom8 → b.take 2 ≠ bomBE → b.take 2 ≠ bomLE → handleBom C8 C none b = .ok ⟨.bytes b, none, false⟩) ∧
    handleBom C8 C none (bom8 ++ b) = .ok ⟨.bytes b, none, true⟩ ∧
    handleBom C8 C none (bomLE ++ encLE t) = .ok ⟨.units t, some .utf16, false⟩ ∧
    handleBom C8 C none (bomBE ++ encBE t) = .ok ⟨.units (0xFEFF :: t), some .utf16, false⟩ := by
  refine ⟨?_, ?_, ?_, ?_⟩
  · intro h1 h2 h3
    have hp : ∀ l : Bytes, b.take l.length ≠ l → l.isPrefixOf b = false := by
      intro l hl
      rw [Bool.eq_false_iff]
      intro h
      obtain ⟨r, rfl⟩ := List.isPrefixOf_iff_prefix.1 h
      exact hl (by simp)
    simp only [handleBom]
    rw [hp bom8 h1, hp bomBE h2, hp bomLE h3]
    rfl
  · have hb : bom8.isPrefixOf (bom8 ++ b) = true := List.isPrefixOf_iff_prefix.2 ⟨b, rfl⟩
    simp only [handleBom]
    rw [if_pos hb]
    rfl
  · have h1 : bom8.isPrefixOf (bomLE ++ encLE t) = false := rfl
    have h2 : bomBE.isPrefixOf (bomLE ++ encLE t) = false := rfl
    have h3 : bomLE.isPrefixOf (bomLE ++ encLE t) = true := List.isPrefixOf_iff_prefix.2 ⟨_, rfl⟩
    have h4 : (bomLE ++ encLE t).drop 2 = encLE t := rfl
    simp only [handleBom, h1, h2, h3, decodeWith, dec16, h4, decLE_encLE]
    rfl
  · have h1 : bom8.isPrefixOf (bomBE ++ encBE t) = false := rfl
    have h2 : bomBE.isPrefixOf (bomBE ++ encBE t) = true := List.isPrefixOf_iff_prefix.2 ⟨_, rfl⟩
    have h4 : decBE (bomBE ++ encBE t) = some (0xFEFF :: t) := by
      show (decBE (encBE t)).map (fun r => (256 * 0xFE + 0xFF) :: r) = _
      rw [decBE_encBE]; rfl
    simp only [handleBom, h1, h2, decodeWith, h4]
    rfl

/-- C191.  Reading with a given encoding: the mark of UTF-8 and of the two explicit orders is removed and remembered if it is there; UTF-16 takes the order from the mark. -/
theorem read_specified (C8 : Codec) (C : String → Codec) (h8 : ∀ t, C8.dec (C8.enc t) = some t) (t : List ℕ) (n : String) (hn : (C n).dec ((C n).enc t) = some t) :
    handleBom C8 C (some .utf8) (bom8 ++ C8.enc t) = .ok ⟨.units t, some .utf8, true⟩ ∧
    (¬ bom8 <+: C8.enc t → handleBom C8 C (some .utf8) (C8.enc t) = .ok ⟨.units t, some .utf8, false⟩) ∧
    handleBom C8 C (some .utf16le) (bomLE ++ encLE t) = .ok ⟨.units t, some .utf16le, true⟩ ∧
    handleBom C8 C (some .utf16be) (bomBE ++ encBE t) = .ok ⟨.units t, some .utf16be, true⟩ ∧
    handleBom C8 C (some .utf16) (bomLE ++ encLE t) = .ok ⟨.units t, some .utf16, false⟩ ∧
    handleBom C8 C (some (.other n)) ((C n).enc t) = .ok ⟨.units t, some (.other n), false⟩ := by
  refine ⟨?_, ?_, ?_, ?_, ?_, ?_⟩
  · have h1 : bom8.isPrefixOf (bom8 ++ C8.enc t) = true := List.isPrefixOf_iff_prefix.2 ⟨_, rfl⟩
    have h2 : (bom8 ++ C8.enc t).drop bom8.length = C8.enc t := rfl
    simp only [handleBom, if_true, h1, h2, decodeWith, h8]
    rfl
  · intro hp
    have h1 : bom8.isPrefixOf (C8.enc t) = false := by
      rw [Bool.eq_false_iff]; exact fun h => hp (List.isPrefixOf_iff_prefix.1 h)
    simp only [handleBom, if_true, h1, decodeWith, h8]
    rfl
  · have h1 : bomLE.isPrefixOf (bomLE ++ encLE t) = true := List.isPrefixOf_iff_prefix.2 ⟨_, rfl⟩
    have h2 : (bomLE ++ encLE t).drop bomLE.length = encLE t := rfl
    simp only [handleBom, reduceCtorEq, if_false, h1, if_true, h2, decodeWith, decLE_encLE]
    rfl
  · have h1 : bomBE.isPrefixOf (bomBE ++ encBE t) = true := List.isPrefixOf_iff_prefix.2 ⟨_, rfl⟩
    have h2 : (bomBE ++ encBE t).drop bomBE.length = encBE t := rfl
    simp only [handleBom, reduceCtorEq, if_false, h1, if_true, h2, decodeWith, decBE_encBE]
    rfl
  · have h2 : bomBE.isPrefixOf (bomLE ++ encLE t) = false := rfl
    have h3 : bomLE.isPrefixOf (bomLE ++ encLE t) = true := List.isPrefixOf_iff_prefix.2 ⟨_, rfl⟩
    have h4 : (bomLE ++ encLE t).drop 2 = encLE t := rfl
    simp only [handleBom, h2, h3, decodeWith, dec16, h4, decLE_encLE]
    rfl
  · simp only [handleBom, decodeWith, hn]
    rfl

/-- C191.  What is written of a file that was read without encoding is the same bytes with a line break at the end, with the mark of UTF-8 exactly if it was there. -/
theorem bytes_kept (C8 : Codec) (C : String → Codec) (b : Bytes) (hb : b.getLast? = some 10) :
    (b.take 3 ≠ bom8 → b.take 2 ≠ bomBE → b.take 2 ≠ bomLE → ∃ r, handleBom C8 C none b = .ok r ∧ write C8 C r = b) ∧
    ∃ r, handleBom C8 C none (bom8 ++ b) = .ok r ∧ write C8 C r = bom8 ++ b := by
  refine ⟨fun h1 h2 h3 => ⟨_, (read_unspecified C8 C b []).1 h1 h2 h3, ?_⟩, ⟨_, (read_unspecified C8 C b []).2.1, ?_⟩⟩
  · simp [write, hb]
  · have : (bom8 ++ b).getLast? = some 10 := by rw [List.getLast?_append, hb]; rfl
    simp [write, this]

/-- C191.  Text written in an 8-bit encoding (ASCII characters are their bytes and it is reversible) is read back with a line break at the end. -/
theorem eight_bit_round_trip (C8 : Codec) (C : String → Codec) (n : String) (hd : ∀ t, (C n).dec ((C n).enc t) = some t) (ha : ∀ t, (C n).enc (t ++ [10]) = (C n).enc t ++ [10])
    (hl : ∀ t, ((C n).enc t).getLast? = some 10 ↔ t.getLast? = some 10) (t : List ℕ) (bom : Bool) :
    handleBom C8 C (some (.other n)) (write C8 C ⟨.units t, some (.other n), bom⟩) =
      .ok ⟨.units (if t.getLast? = some 10 then t else t ++ [10]), some (.other n), false⟩ := by
  have hw : write C8 C ⟨.units t, some (.other n), bom⟩ = (C n).enc (if t.getLast? = some 10 then t else t ++ [10]) := by
    simp only [write, encodeWith, reduceCtorEq, Option.some.injEq, decide_false, Bool.or_false, Bool.and_false, Bool.false_eq_true, if_false]
    by_cases h : t.getLast? = some 10
    · rw [if_pos h, if_pos ((hl t).2 h)]
    · rw [if_neg h, if_neg (fun h' => h ((hl t).1 h')), ha]
  rw [hw]
  simp only [handleBom, decodeWith, hd]
  rfl

theorem lastLE (t : List ℕ) (u : ℕ) : (encLE (t ++ [u])).getLast? = some (u / 256) := by
  rw [encLE_append, List.getLast?_append]; rfl

theorem lastBE (t : List ℕ) (u : ℕ) : (encBE (t ++ [u])).getLast? = some (u % 256) := by
  rw [encBE_append, List.getLast?_append]; rfl

/-- C191.  Defect: the line break at the end is one byte also in UTF-16, so that what was written can be read again only if the last byte happened to be 10: with `utf_16` and `utf16_le` if the high
byte of the last character is 10, with `utf16_be` if its low byte is.  Every other file is UnicodeDecodeError when read. -/
theorem utf16_written (C8 : Codec) (C : String → Codec) (t : List ℕ) (u : ℕ) (hu : u < 65536) (hF : (t ++ [u]).head? ≠ some 0xFEFF) (bom : Bool) :
    handleBom C8 C (some .utf16) (write C8 C ⟨.units (t ++ [u]), some .utf16, bom⟩) =
      (if u / 256 = 10 then .ok ⟨.units (t ++ [u]), some .utf16, false⟩ else .error .decode) ∧
    handleBom C8 C (some .utf16le) (write C8 C ⟨.units (t ++ [u]), some .utf16le, bom⟩) =
      (if u / 256 = 10 then .ok ⟨.units (t ++ [u]), some .utf16le, false⟩ else .error .decode) ∧
    handleBom C8 C (some .utf16be) (write C8 C ⟨.units (t ++ [u]), some .utf16be, bom⟩) =
      (if u % 256 = 10 then .ok ⟨.units (t ++ [u]), some .utf16be, false⟩ else .error .decode) := by
  refine ⟨?_, ?_, ?_⟩
  · have hl : (bomLE ++ encLE (t ++ [u])).getLast? = some (u / 256) := by rw [List.getLast?_append, lastLE]; rfl
    have hw : write C8 C ⟨.units (t ++ [u]), some .utf16, bom⟩ = bomLE ++ (encLE (t ++ [u]) ++ (if u / 256 = 10 then [] else [10])) := by
      simp only [write, encodeWith, reduceCtorEq, Option.some.injEq, decide_false, Bool.or_false, Bool.and_false, Bool.false_eq_true, if_false, hl]
      split_ifs <;> simp
    rw [hw]
    generalize hx : encLE (t ++ [u]) ++ (if u / 256 = 10 then [] else [10]) = x
    have h2 : bomBE.isPrefixOf (bomLE ++ x) = false := rfl
    have h3 : bomLE.isPrefixOf (bomLE ++ x) = true := List.isPrefixOf_iff_prefix.2 ⟨_, rfl⟩
    have h4 : (bomLE ++ x).drop 2 = x := rfl
    simp only [handleBom, h2, h3, decodeWith, dec16, h4, Bool.false_eq_true, if_false, if_true]
    rw [← hx]
    split_ifs with h
    · rw [List.append_nil, decLE_encLE]; rfl
    · rw [(decLE_none _).2 (by rw [List.length_append, encLE_length]; simp)]; rfl
  · have hw : write C8 C ⟨.units (t ++ [u]), some .utf16le, bom⟩ = encLE (t ++ [u]) ++ (if u / 256 = 10 then [] else [10]) := by
      simp only [write, encodeWith, reduceCtorEq, Option.some.injEq, decide_false, Bool.or_false, Bool.and_false, Bool.false_eq_true, if_false, lastLE]
      split_ifs <;> simp
    rw [hw]
    have hp : bomLE.isPrefixOf (encLE (t ++ [u]) ++ (if u / 256 = 10 then [] else [10])) = false := by
      rw [Bool.eq_false_iff]
      intro h
      apply hF
      cases t with
      | nil =>
        simp only [List.nil_append, encLE, List.cons_append, bomLE, List.isPrefixOf, Bool.and_eq_true, beq_iff_eq] at h
        simp only [List.nil_append, List.head?_cons, Option.some.injEq]; omega
      | cons w t =>
        simp only [encLE, List.cons_append, bomLE, List.isPrefixOf, Bool.and_eq_true, beq_iff_eq] at h
        simp only [List.cons_append, List.head?_cons, Option.some.injEq]; omega
    simp only [handleBom, reduceCtorEq, if_false, hp, decodeWith, Bool.false_eq_true]
    split_ifs with h
    · rw [List.append_nil, decLE_encLE]; rfl
    · rw [(decLE_none _).2 (by rw [List.length_append, encLE_length]; simp)]; rfl
  · have hw : write C8 C ⟨.units (t ++ [u]), some .utf16be, bom⟩ = encBE (t ++ [u]) ++ (if u % 256 = 10 then [] else [10]) := by
      simp only [write, encodeWith, reduceCtorEq, Option.some.injEq, decide_false, Bool.or_false, Bool.and_false, Bool.false_eq_true, if_false, lastBE]
      split_ifs <;> simp
    rw [hw]
    have hp : bomBE.isPrefixOf (encBE (t ++ [u]) ++ (if u % 256 = 10 then [] else [10])) = false := by
      rw [Bool.eq_false_iff]
      intro h
      apply hF
      cases t with
      | nil =>
        simp only [List.nil_append, encBE, List.cons_append, bomBE, List.isPrefixOf, Bool.and_eq_true, beq_iff_eq] at h
        simp only [List.nil_append, List.head?_cons, Option.some.injEq]; omega
      | cons w t =>
        simp only [encBE, List.cons_append, bomBE, List.isPrefixOf, Bool.and_eq_true, beq_iff_eq] at h
        simp only [List.cons_append, List.head?_cons, Option.some.injEq]; omega
    simp only [handleBom, reduceCtorEq, if_true, if_false, hp, decodeWith, Bool.false_eq_true]
    split_ifs with h
    · rw [List.append_nil, decBE_encBE]; rfl
    · rw [(decBE_none _).2 (by rw [List.length_append, encBE_length]; simp)]; rfl

/-- C191.  Defect: a list of lines with the encoding UTF-16 is AttributeError, with others not. -/
theorem lines_utf16 (e : Option Enc) : handleLines e = .error .attribute ↔ e = some .utf16 := by
  unfold handleLines
  split_ifs with h <;> simp [h]

/-- A case: `a = 1` in UTF-16 of the other order, and written in UTF-16. -/
theorem example_encoding (C8 : Codec) (C : String → Codec) :
    handleBom C8 C none [0xFE, 0xFF, 0, 97, 0, 61, 0, 49] = .ok ⟨.units [0xFEFF, 97, 61, 49], some .utf16, false⟩ ∧
    write C8 C ⟨.units [97, 61, 49], some .utf16, false⟩ = [0xFF, 0xFE, 97, 0, 61, 0, 49, 0, 10] ∧
    handleBom C8 C (some .utf16) [0xFF, 0xFE, 97, 0, 61, 0, 49, 0, 10] = .error .decode := by
  refine ⟨rfl, ?_, rfl⟩
  simp [write, encodeWith, encLE, bomLE]

end Verif.ConfigEncoding
