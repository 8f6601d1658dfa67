#!/usr/bin/env python3
"""Print lean/Verif/Tests/Fixtures.lean: the tests of the repository, run on the model.

usage: fixtures.py REPO

The bytes are those of the fixtures in REPO/tests/fixtures.  The expected values are copied from
the tests.  The tests of NotoSansJP are left out, as its file is not in the repository.
"""
import re, struct, sys

repo = sys.argv[1]

def index(d, p):
    n = struct.unpack('>H', d[p:p+2])[0]
    if n == 0:
        return [], p + 2
    o = d[p+2]
    offsets = [int.from_bytes(d[p+3+i*o:p+3+(i+1)*o], 'big') for i in range(n + 1)]
    b = p + 3 + (n + 1) * o - 1
    return [d[b+offsets[i]:b+offsets[i+1]] for i in range(n)], b + offsets[n]

def load(name, offset, strings, private, subrs):
    """The places are those that the tests assert (top dictionary, private dictionary)."""
    d = open(f'{repo}/tests/fixtures/{name}', 'rb').read()[offset:]
    p = d[2]
    names, p1 = index(d, p)
    tops, p2 = index(d, p1)
    _, p3 = index(d, p2)
    glob, p4 = index(d, p3)
    chars, _ = index(d, strings)
    size, at = private
    loc, _ = index(d, at + subrs)
    return dict(head=d[:p4], top=tops[0], names=(p, p1), glob=glob, chars=chars, private=d[at:at+size], loc=loc)

def packed(bs):
    return f'({len(bs)}, {int.from_bytes(bs, "little")})'

def byte_list(bs):
    return '[' + ', '.join(str(b) for b in bs) + ']'

def rust(path, start):
    """The operations that follow a line in a test."""
    text = open(f'{repo}/{path}').read()
    text = text[text.index(start):]
    text = text[text.index('operations!('):]
    text = text[:text.index(');')]
    return re.findall(r'(\w+): \[([^\]]*)\],', text)

def f32(x):
    x = x.strip()
    if re.fullmatch(r'-?\d+(\.0)?', x):
        return f'F32.ofInt ({x.split(".")[0]})' if x.startswith('-') else f'F32.ofInt {x.split(".")[0]}'
    return f'real "{x}"'

def number(x):
    x = x.strip()
    return f'.real ({f32(x)})' if '.' in x else f'.integer ({x})' if x.startswith('-') else f'.integer {x}'

def operations(l):
    return '[' + ',\n    '.join(f'(.op{op}, [' + ', '.join(f32(x) for x in xs.split(',') if x.strip()) + '])' for op, xs in l) + ']'

def dictionary(l):
    return '[' + ', '.join(f'(.op{op}, [' + ', '.join(number(x) for x in xs.split(',') if x.strip()) + '])' for op, xs in l) + ']'

serif = load('SourceSerifPro-Regular.otf', 17732, 8917, (65, 33671), 65)
hira = load('Hirakatana-Regular.otf', 1524, 504, (49, 129135), 49)

out = '''import Verif.Model.FontSet
import Verif.Model.Program
/-!
# The tests of the repository, run on the model

Generated by tools/fixtures.py from the fixtures and the tests in the repository.  This is a
check of how the code was read and of what was assumed about its dependencies.  It is not part of
any proof.
-/
namespace PS.Tests

/-- A file, as `std::fs::File` has it. -/
def file : Config := ⟨true, true, 2 ^ 63 - 1, fun _ n => n⟩

/-- Reading from memory. -/
def run (m : Rd α) (data : List UInt8) : Option α :=
  match m ⟨file, data⟩ 0 with
  | (.ok a, _) => some a
  | _ => none

/-- The literal of a real number. -/
def real (s : String) : F32 := (parseF32 s.toList).getD .nan

/-- A string of bytes as its length and its little-endian value. -/
def unpack : Nat → Nat → List UInt8
  | 0, _ => []
  | n + 1, x => UInt8.ofNat (x % 256) :: unpack n (x / 256)

/-! ## src/compact1/number.rs -/

'''
text = open(f'{repo}/src/compact1/number.rs').read()
for bs, v in re.findall(r'Cursor::new\(vec!\[([^\]]*)\]\);\s*assert_eq!\(read!\(tape\), (-?\d+)\)', text):
    out += f'example : run Number.read [{bs}] = some (.integer ({v})) := by decide +kernel\n'
for bs, sign, v in re.findall(r'Cursor::new\(vec!\[([^\]]*)\]\);\s*assert!\(\(read!\(tape\) ([+-]) ([\d.e-]+)\)', text):
    v = ('-' if sign == '+' else '') + v
    out += f'example : run Number.read [{bs}] = some (.real (real "{v}")) := by decide +kernel\n'
out += '''
/-! ## src/compact1/offset.rs -/

example : run (do pure [← readOffset 1, ← readOffset 2, ← readOffset 3, ← readOffset 4]) [1, 2, 3, 4, 5, 6, 7, 8, 9, 10] =
    some [0x01, 0x0203, 0x040506, 0x0708090a] := by decide +kernel

/-! ## src/compact1/index/strings.rs -/

example : (getStandardString (UInt16.ofNat numberOfStandardStrings - 1)).isSome = true ∧
    getStandardString (UInt16.ofNat numberOfStandardStrings) = none := by decide +kernel

/-! ## src/type2/number.rs -/

/-- The test compares with 1.017, rounded to three digits. -/
example : run Type2.readNumber [0xff, 0x00, 0x01, 0x04, 0x5a] = some (real "1.016998291015625") := by decide +kernel

'''
top_test, private_test = [rust('tests/compact1.rs', s) for s in ('fn operations() {\n        let set = setup_font_set(Fixture::SourceSerifPro)', 'fn records() {\n        use postscript::compact1::font_set::Record;\n\n        let set = setup_font_set(Fixture::SourceSerifPro)')]
glyph_hira = rust('tests/type2.rs', 'mod hirakatana')
glyph_serif = rust('tests/type2.rs', 'fn one() {\n        let set = setup_font_set(Fixture::SourceSerifPro)')
assert len(top_test) == 10 and len(private_test) == 13 and len(glyph_hira) == 4 and len(glyph_serif) == 39, (len(top_test), len(private_test), len(glyph_hira), len(glyph_serif))

def routines(l):
    return '[' + ',\n  '.join(packed(b) for b in l) + '].map fun (n, x) => unpack n x'

out += f'''/-! ## tests/compact1.rs, source_serif -/

/-- The header and the names. -/
def serifHead : List UInt8 := {byte_list(serif['head'][:serif['names'][1]])}

example : run Header.read serifHead = some ⟨1, 0, 4, 2⟩ := by decide +kernel

example : (run (do let _ ← Header.read; Index.read) serifHead).map (fun names => names.data.map Utf8.lossy) =
    some ["SourceSerifPro-Regular"] := by decide +kernel

/-- Does the dictionary have these operations? -/
def agrees (data : List UInt8) (expected : List (Operator × List Number)) : Bool :=
  match run Operations.read data with
  | some o => expected.all fun (operator, operands) => o.map operator = some operands
  | none => false

/-- The top dictionary. -/
def serifTop : List UInt8 := {byte_list(serif['top'])}

example : agrees serifTop {dictionary(top_test)} = true := by
  decide +kernel

/-- The private dictionary. -/
def serifPrivate : List UInt8 := {byte_list(serif['private'])}

example : agrees serifPrivate {dictionary(private_test)} = true := by
  decide +kernel

/-! ## tests/type2.rs -/

/-- `while let Some(operation) = ok!(program.next())`, with the width afterwards. -/
def play (program : Type2.Program) : Nat → Option (List (Type2.Operator × List F32) × Option F32)
  | 0 => none
  | fuel + 1 =>
    match Type2.nextFuel 100 file program with
    | some (.ok none, program) => some ([], program.width)
    | some (.ok (some operation), program) => (play program fuel).map fun (l, w) => (operation :: l, w)
    | _ => none

/-- The local subroutines of Hirakatana. -/
def hiraLocal : List (List UInt8) := {routines(hira['loc'])}

/-- The glyph with number 10. -/
def hiraGlyph : List UInt8 := {byte_list(hira['chars'][10])}

example : (play (Type2.Program.new hiraGlyph [] hiraLocal) 100).map Prod.fst = some
    {operations(glyph_hira)} := by
  decide +kernel

/-- The global subroutines of SourceSerifPro. -/
def serifGlobal : List (List UInt8) := {routines(serif['glob'])}

/-- The local subroutines of SourceSerifPro. -/
def serifLocal : List (List UInt8) := {routines(serif['loc'])}

/-- The glyph with number 134. -/
def serifGlyph : List UInt8 := {byte_list(serif['chars'][134])}

example : serifGlobal.length = 181 ∧ serifLocal.length = 180 := by decide +kernel

example : play (Type2.Program.new serifGlyph serifGlobal serifLocal) 100 = some
    ({operations(glyph_serif)}, some (F32.ofInt (-95))) := by
  decide +kernel

end PS.Tests
'''
print(out, end='')
