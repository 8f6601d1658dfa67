import Verif.Spec.Rewrite
/-!
# Specification: font sets made of the same things
-/
namespace PS.Spec

/-- The contents of two dictionaries give the same operands to each operator. -/
def Entries.Same (e e' : Entries) : Prop := ∀ op operands, Last e.ops op operands ↔ Last e'.ops op operands

/-- Two private dictionaries with the same operands and the same subroutines. -/
def PrivateDef.Same (p p' : PrivateDef) : Prop := p.entries.Same p'.entries ∧ p.locals = p'.locals

/-- Two font dictionaries of fonts keyed by character identifiers. -/
def FontDictDef.Same (d d' : FontDictDef) : Prop := d.entries.Same d'.entries ∧ d.priv.Same d'.priv

/-- Two fonts are keyed in the same way.  The supplement is the same number, which may have been
encoded in different ways. -/
def Keying.Same : Keying → Keying → Prop
  | .names p, .names p' => p.Same p'
  | .identifiers registry ordering supplement select dicts, .identifiers registry' ordering' supplement' select' dicts' =>
    registry = registry' ∧ ordering = ordering' ∧ supplement.1 = supplement'.1 ∧ select = select' ∧
      List.Forall₂ FontDictDef.Same dicts dicts'
  | _, _ => False

/-- Two fonts are made of the same things. -/
def FontDef.Same (f f' : FontDef) : Prop :=
  f.entries.Same f'.entries ∧ f.codes = f'.codes ∧ f.set = f'.set ∧ f.encoding = f'.encoding ∧ f.keying.Same f'.keying

/-- Two font sets are made of the same things. -/
def FontSetDef.Same (d d' : FontSetDef) : Prop :=
  d.names = d'.names ∧ d.strings = d'.strings ∧ d.globals = d'.globals ∧ List.Forall₂ FontDef.Same d.fonts d'.fonts

end PS.Spec
