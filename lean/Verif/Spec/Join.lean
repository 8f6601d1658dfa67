import Verif.Spec.Merge
/-!
# Specification: font sets with other subroutines in one

Font sets have one table of global subroutines for all their fonts.  If two that do not have the
same one are to be merged, their code needs to be replaced.
-/
namespace PS.Spec

/-- `Joined G L1 C1 L2 C2 fs1 fs2 fs'`: the fonts of `fs'` are those of `fs1` and then those of
`fs2`, with `G` for the global subroutines of both, and with other local subroutines and character
strings accordingly. -/
def Joined (G : List (List UInt8)) (L1 : Nat → Nat → List (List UInt8)) (C1 : Nat → List (List UInt8))
    (L2 : Nat → Nat → List (List UInt8)) (C2 : Nat → List (List UInt8)) (fs1 fs2 fs' : FontSet) : Prop :=
  ∃ fs1' fs2', Recoded G L1 C1 fs1 fs1' ∧ Recoded G L2 C2 fs2 fs2' ∧ Merged fs1' fs2' fs'

/-- The fonts of `fs'` are those of `fs1` and then those of `fs2`, without subroutines and with
flat character strings. -/
def JoinedFlat (fs1 fs2 fs' : FontSet) : Prop :=
  ∃ fs1' fs2', Flattened fs1 fs1' ∧ Flattened fs2 fs2' ∧ Merged fs1' fs2' fs'

/-- In any build, the font `k'` of `fs'` does for a user what the font `k` of `fs` does in the
build `cfg`. -/
def Performs (cfg : Config) (fs : FontSet) (k : Nat) (fs' : FontSet) (k' : Nat) : Prop :=
  (∀ cfg' g l out, Shows cfg' fs' k' g l out ↔ Shows cfg fs k g l out) ∧ (∀ g t, GlyphNamed fs' k' g t ↔ GlyphNamed fs k g t) ∧
  (∀ code g, CodeLeads fs' k' code g ↔ CodeLeads fs k code g) ∧
  (∀ registry ordering supplement, Collection fs' k' registry ordering supplement ↔ Collection fs k registry ordering supplement) ∧
  ∀ op ∈ textual, ∀ t, DictString fs k op t → DictString fs' k' op t

end PS.Spec
