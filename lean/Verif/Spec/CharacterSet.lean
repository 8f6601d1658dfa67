import Verif.Model.CharacterSet
import Verif.Model.Encoding
import Verif.Spec.Bytes
import Verif.Spec.Strings
/-!
# Specification: character sets and encodings

Sections 12 and 13 and Appendices B and C of the CFF specification (Technical
Note #5176).
-/
namespace PS.Spec

/-! ## Character sets -/

/-- The glyphs of the predefined character sets by glyph index, as string
identifiers, Appendix C. -/
def isoAdobeGlyphs : List Nat := List.range 229

/-- See `isoAdobeGlyphs`. -/
def expertGlyphs : List Nat :=
  [0, 1] ++ List.range' 229 10 ++ [13, 14, 15, 99] ++ List.range' 239 10 ++ [27, 28] ++ List.range' 249 18 ++
  [109, 110] ++ List.range' 267 52 ++ [158, 155, 163] ++ List.range' 319 8 ++ [150, 164, 169] ++ List.range' 327 52

/-- See `isoAdobeGlyphs`. -/
def expertSubsetGlyphs : List Nat :=
  [0, 1, 231, 232, 235, 236, 237, 238, 13, 14, 15, 99] ++ List.range' 239 10 ++ [27, 28, 249, 250, 251] ++
  List.range' 253 14 ++ [109, 110, 267, 268, 269, 270, 272, 300, 301, 302, 305, 314, 315, 158, 155, 163] ++
  List.range' 320 7 ++ [150, 164, 169] ++ List.range' 327 20

/-- The name of the glyph with index `g` in a predefined character set. -/
def glyphName (glyphs : List Nat) (g : Nat) : Option String :=
  match glyphs[g]? with
  | some sid => standardStringList[sid]?
  | none => none

/-- The serialisation of a custom character set, Tables 17 to 20: the format, and
the glyphs or the ranges. -/
def encodeCharacterSet : CharacterSet → List UInt8
  | .format0 _ glyphs => 0 :: glyphs.flatMap fun g => be 2 g.toNat
  | .format1 _ ranges => 1 :: ranges.flatMap fun r => be 2 r.firstStringID.toNat ++ [r.leftCount]
  | .format2 _ ranges => 2 :: ranges.flatMap fun r => be 2 r.firstStringID.toNat ++ be 2 r.leftCount.toNat
  | _ => []

/-- The number of glyphs a custom character set describes, apart from `.notdef`:
a range has its first glyph and the number of glyphs left. -/
def covered : CharacterSet → Nat
  | .format0 _ glyphs => glyphs.length
  | .format1 _ ranges => (ranges.map fun r => 1 + r.leftCount.toNat).sum
  | .format2 _ ranges => (ranges.map fun r => 1 + r.leftCount.toNat).sum
  | _ => 0

/-- A custom character set whose format field is right. -/
def Custom : CharacterSet → Prop
  | .format0 f _ => f = 0
  | .format1 f _ => f = 1
  | .format2 f _ => f = 2
  | _ => False

/-! ## Encodings -/

/-- A predefined encoding, Appendix B: `(first, last, sid)` gives the codes from
`first` to `last` consecutive string identifiers from `sid` on; all other codes
are `.notdef`. -/
def standardCodes : List (Nat × Nat × Nat) :=
  [(32, 126, 1), (161, 175, 96), (177, 180, 111), (182, 189, 115), (191, 191, 123), (193, 200, 124), (202, 203, 132),
   (205, 208, 134), (225, 225, 138), (227, 227, 139), (232, 235, 140), (241, 241, 144), (245, 245, 145), (248, 251, 146)]

/-- See `standardCodes`. -/
def expertCodes : List (Nat × Nat × Nat) :=
  [(32, 32, 1), (33, 34, 229), (36, 43, 231), (44, 46, 13), (47, 47, 99), (48, 57, 239), (58, 59, 27), (60, 63, 249),
   (65, 69, 253), (73, 73, 258), (76, 79, 259), (82, 84, 263), (86, 86, 266), (87, 88, 109), (89, 91, 267),
   (93, 126, 270), (161, 163, 304), (166, 170, 307), (172, 172, 312), (175, 175, 313), (178, 179, 314), (182, 184, 316),
   (188, 188, 158), (189, 189, 155), (190, 190, 163), (191, 197, 319), (200, 200, 326), (201, 201, 150), (202, 202, 164),
   (203, 203, 169), (204, 255, 327)]

/-- The string identifier of a code in a predefined encoding. -/
def codeSID (codes : List (Nat × Nat × Nat)) (code : Nat) : Nat :=
  match codes.find? fun x => x.1 ≤ code ∧ code ≤ x.2.1 with
  | some (first, _, sid) => sid + (code - first)
  | none => 0

/-- The serialisation of the three layouts, Tables 11 to 15, the supplemental one
being the structure that the code reads: a format, a count and the supplements. -/
def encodeEncoding : Encoding → List UInt8
  | .format0 _ _ codes => 0 :: UInt8.ofNat codes.length :: codes
  | .format1 _ _ ranges => 1 :: UInt8.ofNat ranges.length :: ranges.flatMap fun r => [r.firstCode, r.leftCount]
  | .supplemental f _ sups => f :: UInt8.ofNat sups.length :: sups.flatMap fun s => s.code :: be 2 s.glyph.toNat
  | _ => []

/-- An encoding that can be serialised: the fields that repeat the format and the
number of entries are right. -/
def Encodable : Encoding → Prop
  | .format0 f n codes => f = 0 ∧ codes.length = n.toNat
  | .format1 f n ranges => f = 1 ∧ ranges.length = n.toNat
  | .supplemental f n sups => 128 ≤ f.toNat ∧ sups.length = n.toNat
  | _ => False

/-- A custom encoding followed by a supplement, as the specification lays it out
(Section 12): the format has the high bit set, and the supplements, preceded by
their number, follow the codes or ranges of the base encoding. -/
def encodeSupplemented (base : Encoding) (sups : List Supplement) : List UInt8 :=
  match encodeEncoding base with
  | f :: l => UInt8.ofNat (f.toNat + 128) :: l ++ (UInt8.ofNat sups.length :: sups.flatMap fun s => s.code :: be 2 s.glyph.toNat)
  | [] => []

end PS.Spec
