import Verif.Spec.Flat
import Verif.Spec.Renumber
import Verif.Spec.Uncalled
/-!
# Specification: font sets of which the code was replaced

What tools that subroutinise or flatten fonts do: all the character strings and all the
subroutines are replaced, and the rest of the font set stays as it is.
-/
namespace PS.Spec

/-- Two private dictionaries agree, but that the local subroutines are `subroutines` now. -/
def NewPrivate (subroutines : List (List UInt8)) (r r' : PrivateRecord) : Prop :=
  SameDict [.opSubrs] r.operations r'.operations ∧ r'.subroutines.data = subroutines

/-- Two records agree, but that the local subroutines of the private dictionary with the
number `d` are `L d` now. -/
def NewRecord (L : Nat → List (List UInt8)) : Record → Record → Prop
  | .characterNameKeyed r, .characterNameKeyed r' => NewPrivate (L 0) r r'
  | .characterIDKeyed r, .characterIDKeyed r' =>
    r.registry = r'.registry ∧ r.ordering = r'.ordering ∧ r.supplement = r'.supplement ∧ r.encoding = r'.encoding ∧
    List.Forall₂ (SameDict [.opPrivate]) r.operations r'.operations ∧ r.records.length = r'.records.length ∧
    ∀ (d : Nat) p p', r.records[d]? = some p → r'.records[d]? = some p' → NewPrivate (L d) p p'
  | _, _ => False

/-- `Recoded G L C fs fs'`: in `fs'`, the global subroutines are `G`, the local ones of the
private dictionary `d` of the font `k` are `L k d`, and the character strings of the font `k`
are `C k`.  Nothing else is different from `fs`. -/
def Recoded (G : List (List UInt8)) (L : Nat → Nat → List (List UInt8)) (C : Nat → List (List UInt8)) (fs fs' : FontSet) : Prop :=
  fs'.names.data = fs.names.data ∧ fs'.strings.data = fs.strings.data ∧ fs'.subroutines.data = G ∧
  List.Forall₂ (SameDict FontDef.reserved) fs.operations fs'.operations ∧
  fs'.characterStrings.length = fs.characterStrings.length ∧
  (∀ (k : Nat) cs, fs'.characterStrings[k]? = some cs → cs.data = C k) ∧
  fs'.characterSets = fs.characterSets ∧ fs'.encodings = fs.encodings ∧ fs.records.length = fs'.records.length ∧
  ∀ (k : Nat) r r', fs.records[k]? = some r → fs'.records[k]? = some r' → NewRecord (L k) r r'

/-- A bound for the size of an INDEX. -/
def indexBulk (items : List (List UInt8)) : Nat := items.flatten.length + 4 * items.length + 7

/-- A bound for the size of all the new code. -/
def codeBulk (G : List (List UInt8)) (L : Nat → Nat → List (List UInt8)) (C : Nat → List (List UInt8)) (fs : FontSet) : Nat :=
  indexBulk G +
    (fs.records.mapIdx fun k r => indexBulk (C k) + ((List.range (privateList r).length).map fun d => indexBulk (L k d)).sum).sum

/-- There are as many new character strings as there are glyphs, and not too many subroutines. -/
def CodeFits (G : List (List UInt8)) (L : Nat → Nat → List (List UInt8)) (C : Nat → List (List UInt8)) (fs : FontSet) : Prop :=
  (∀ (k : Nat) cs, fs.characterStrings[k]? = some cs → (C k).length = cs.data.length) ∧ G.length ≤ 65535 ∧
  ∀ k d, (L k d).length ≤ 65535

/-- The new code is the old one but for the numbers of subroutines: for each glyph, `g i j` says
that the global subroutine `i` becomes `j`, and `l i j` the same of the local subroutines.  Only
the subroutines that the glyph needs have to become others; `m` is the size of its masks. -/
def RenumberedCode (checks : Bool) (G : List (List UInt8)) (L : Nat → Nat → List (List UInt8)) (C : Nat → List (List UInt8)) (fs : FontSet) : Prop :=
  ∀ (k i d : Nat) cs r code code' priv, fs.characterStrings[k]? = some cs → fs.records[k]? = some r → cs.data[i]? = some code →
    (C k)[i]? = some code' → Chooses r i d → (privateList r)[d]? = some priv →
    ∃ (m : Nat) (g l : Nat → Nat → Prop), Type2.Spec.Consistent ⟨fs.subroutines.data, G, g⟩ ⟨priv.subroutines.data, L k d, l⟩ m ∧
      Type2.Spec.Renumbered ⟨fs.subroutines.data, G, g⟩ ⟨priv.subroutines.data, L k d, l⟩ m code code' ∧
      Type2.Spec.Masks checks (Type2.Spec.view (Type2.Program.new code fs.subroutines.data priv.subroutines.data)) m

/-- The number of glyphs. -/
def glyphCount (fs : FontSet) : Nat := (fs.characterStrings.map fun cs => cs.data.length).sum

/-- `Flattened fs fs'`: in `fs'` there are no subroutines, and all the character strings are
flat.  Nothing else is different from `fs`, in which there are as many glyphs. -/
def Flattened (fs fs' : FontSet) : Prop :=
  ∃ C, Recoded [] (fun _ _ => []) C fs fs' ∧
    (∀ (k : Nat) cs, fs.characterStrings[k]? = some cs → (C k).length = cs.data.length) ∧
    ∀ k, k < fs.characterStrings.length → ∀ code ∈ C k, Type2.Spec.Flat 0 code

/-- `Displays cfg fs k g l w`: all that running the glyph `g` of the font `k` can show is `l`,
at the end of which the width is `w`. -/
def Displays (cfg : Config) (fs : FontSet) (k g : Nat) (l : List Type2.Spec.Observation) (w : Option F32) : Prop :=
  ∀ l' out, Shows cfg fs k g l' out ↔ l' = l ∧ out = .ended w

/-- No character string and no subroutine has the escape byte, that is, there is no
arithmetic. -/
def Escapeless (fs : FontSet) : Prop :=
  (∀ c ∈ fs.subroutines.data, (12 : UInt8) ∉ c) ∧ (∀ cs ∈ fs.characterStrings, ∀ c ∈ cs.data, (12 : UInt8) ∉ c) ∧
  ∀ r ∈ fs.records, ∀ p ∈ privateList r, ∀ c ∈ p.subroutines.data, (12 : UInt8) ∉ c

end PS.Spec
