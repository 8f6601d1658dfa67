import Verif.Spec.Subset
/-!
# Specification: subroutines that are never called
-/
namespace PS.Type2.Spec
open PS.Spec

/-- On the way from `σ`, the machine comes to a call of the global subroutine `i`. -/
def CallsGlobal (checks : Bool) (σ : State) (i : Nat) : Prop :=
  ∃ l τ υ rest st x a, Executes checks σ l τ ∧ Pushes τ υ ∧ υ.code = bytes .opCallGSubr ++ rest ∧
    υ.stack = st ++ [x] ∧ IntArg x a ∧ a + callBias υ.global.length = (i : Int)

/-- On the way from `σ`, the machine comes to a call of the local subroutine `i`. -/
def CallsLocal (checks : Bool) (σ : State) (i : Nat) : Prop :=
  ∃ l τ υ rest st x a, Executes checks σ l τ ∧ Pushes τ υ ∧ υ.code = bytes .opCallSubr ++ rest ∧
    υ.stack = st ++ [x] ∧ IntArg x a ∧ a + callBias υ.local.length = (i : Int)

end PS.Type2.Spec

namespace PS.Spec

open Classical in
/-- The elements at the positions `P` of a list of byte strings, with nothing in place of
the others. -/
noncomputable def emptied (P : Nat → Prop) (l : List (List UInt8)) : List (List UInt8) :=
  l.mapIdx fun i b => if P i then b else []

/-- The private dictionaries of a font. -/
def privateList : Record → List PrivateRecord
  | .characterNameKeyed r => [r]
  | .characterIDKeyed r => r.records

/-- `Chooses r g d`: the private dictionary of the glyph `g` is the one with the number `d`. -/
def Chooses (r : Record) (g d : Nat) : Prop :=
  match r with
  | .characterNameKeyed _ => d = 0
  | .characterIDKeyed r => Selects r.encoding g d

/-- `GlyphProgram fs k d p`: `p` is the program of a glyph of the font `k` that has the
private dictionary `d`. -/
def GlyphProgram (fs : FontSet) (k d : Nat) (p : Type2.Program) : Prop :=
  ∃ cs r g code priv, fs.characterStrings[k]? = some cs ∧ fs.records[k]? = some r ∧ cs.data[g]? = some code ∧
    Chooses r g d ∧ (privateList r)[d]? = some priv ∧
    p = Type2.Program.new code fs.subroutines.data priv.subroutines.data

/-- All the global subroutines that any glyph calls are among `G`, and all the local ones
that a glyph of the font `k` with the private dictionary `d` calls are among `L k d`. -/
def CoversCalls (G : Nat → Prop) (L : Nat → Nat → Nat → Prop) (fs : FontSet) : Prop :=
  ∀ k d p checks i, GlyphProgram fs k d p →
    (Type2.Spec.CallsGlobal checks (Type2.Spec.view p) i → G i) ∧
    (Type2.Spec.CallsLocal checks (Type2.Spec.view p) i → L k d i)

/-- Two private dictionaries agree, but that only the local subroutines `P` are left. -/
def ThinPrivate (P : Nat → Prop) (r r' : PrivateRecord) : Prop :=
  SameDict [.opSubrs] r.operations r'.operations ∧ r'.subroutines.data = emptied P r.subroutines.data

/-- Two records agree, but that only the local subroutines `L d` are left in the private
dictionary with the number `d`. -/
def ThinRecord (L : Nat → Nat → Prop) : Record → Record → Prop
  | .characterNameKeyed r, .characterNameKeyed r' => ThinPrivate (L 0) r r'
  | .characterIDKeyed r, .characterIDKeyed r' =>
    r.registry = r'.registry ∧ r.ordering = r'.ordering ∧ r.supplement = r'.supplement ∧ r.encoding = r'.encoding ∧
    List.Forall₂ (SameDict [.opPrivate]) r.operations r'.operations ∧ r.records.length = r'.records.length ∧
    ∀ (d : Nat) p p', r.records[d]? = some p → r'.records[d]? = some p' → ThinPrivate (L d) p p'
  | _, _ => False

/-- `Thinned G L fs fs'`: in `fs'` only the global subroutines `G` are left, and only the
local subroutines `L k d` in the private dictionary `d` of the font `k`.  Empty byte strings
are in place of the others, and nothing else is different from `fs`. -/
def Thinned (G : Nat → Prop) (L : Nat → Nat → Nat → Prop) (fs fs' : FontSet) : Prop :=
  fs'.names.data = fs.names.data ∧ fs'.strings.data = fs.strings.data ∧
  fs'.subroutines.data = emptied G fs.subroutines.data ∧
  List.Forall₂ (SameDict FontDef.reserved) fs.operations fs'.operations ∧
  fs'.characterStrings.map Index.data = fs.characterStrings.map Index.data ∧
  fs'.characterSets = fs.characterSets ∧ fs'.encodings = fs.encodings ∧ fs.records.length = fs'.records.length ∧
  ∀ (k : Nat) r r', fs.records[k]? = some r → fs'.records[k]? = some r' → ThinRecord (L k) r r'

end PS.Spec
