import Verif.Spec.Program
/-!
# Specification: writing glyphs

What a font producer writes: the width, if it is not the default one, path and
hint operators with their arguments, and `endchar` ("The Type 2 Charstring Format",
section 3.1).
-/
namespace PS.Type2.Spec
open PS.Spec

/-- An instruction of a glyph: a path or stem operator with its arguments, or a mask
operator with the vertical stems it declares on the side, and the mask. -/
inductive Item where
  | plain (op : Operator) (args : List F32)
  | masked (op : Operator) (stems : List F32) (mask : List UInt8)

/-- A glyph: its width, if it is not the default one, and its instructions. -/
structure Glyph where
  width : Option F32
  items : List Item

/-- The number of stems that an instruction declares. -/
def Item.stems : Item → Nat
  | .plain op args => if Stem op then args.length / 2 else 0
  | .masked _ stems _ => stems.length / 2

/-- `Valid n i`: the instruction `i` has as many arguments as its operator takes, and a
mask has a bit for each stem, `n` of which are declared by the instructions before. -/
def Item.Valid (n : Nat) : Item → Prop
  | .plain op args => (Path op ∨ Stem op) ∧ Accepts op args.length
  | .masked op stems mask => Mask op ∧ stems.length % 2 = 0 ∧ mask.length = (n + stems.length / 2 + 7) / 8

/-- All instructions are valid. -/
def AllValid : Nat → List Item → Prop
  | _, [] => True
  | n, i :: l => i.Valid n ∧ AllValid (n + i.stems) l

/-- The instructions that the width may be written with. -/
def Item.TakesWidth : Item → Prop
  | .plain op _ => op ∈ [Operator.opHStem, .opHStemHM, .opVStem, .opVStemHM, .opRMoveTo, .opHMoveTo, .opVMoveTo]
  | .masked .. => True

/-- Masks that declare vertical stems come after the width has been given or, when there
is none, do not occur.  (With them the code takes a stem for the width, see C41.) -/
def Item.NoStems : Item → Prop
  | .plain .. => True
  | .masked _ stems _ => stems = []

/-- A glyph that can be written. -/
def Glyph.Valid (g : Glyph) : Prop :=
  AllValid 0 g.items ∧
  match g.width with
  | none => ∀ i ∈ g.items, i.NoStems
  | some _ => ∀ i ∈ g.items.head?, i.TakesWidth ∧ i.NoStems

/-- `Written extra i bs`: the bytes `bs` are the operands `extra`, the arguments of `i`,
in any encoding each, the operator and the mask. -/
inductive Written (extra : List F32) : Item → List UInt8 → Prop
  | plain {op args bs} : Seq Operand (extra ++ args) bs → Written extra (.plain op args) (bs ++ bytes op)
  | masked {op stems mask bs} : Seq Operand (extra ++ stems) bs →
    Written extra (.masked op stems mask) (bs ++ bytes op ++ mask)

/-- The instructions one after the other, and `endchar`; `extra` comes first. -/
inductive WrittenAll : List F32 → List Item → List UInt8 → Prop
  | nil {extra bs} : Seq Operand extra bs → WrittenAll extra [] (bs ++ bytes .opEndChar)
  | cons {extra i l bs bs'} : Written extra i bs → WrittenAll [] l bs' → WrittenAll extra (i :: l) (bs ++ bs')

/-- The bytes of a glyph: the width, if any, comes first. -/
def Glyph.Bytes (g : Glyph) (bs : List UInt8) : Prop := WrittenAll g.width.toList g.items bs

/-- The operation of an instruction: masks have no arguments. -/
def Item.operation : Item → Operation
  | .plain op args => (op, args)
  | .masked op _ _ => (op, [])

/-- What is seen of the instructions: each with the width and the number of stems
declared up to it. -/
def seen (width : Option F32) : Nat → List Item → List Observation
  | _, [] => []
  | n, i :: l => (i.operation, width, n + i.stems) :: seen width (n + i.stems) l

end PS.Type2.Spec
