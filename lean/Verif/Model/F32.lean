import Mathlib.Data.Nat.Sqrt
/-!
# IEEE 754 binary32

`f32` values are the operands of both dictionaries (`Number::Real`,
src/compact1/number.rs:12) and Type 2 programs (`Operand`,
src/type2/operation.rs:6).  The arithmetic of the hardware is modelled exactly:
every operation is the exact result rounded to nearest, ties to even.

NaN is a single value: its sign and payload are not modelled (the code never
looks at them).
-/
namespace PS

/-- A binary32 value.  `fin neg m e` is `± m * 2^e * 2^-149`; it is canonical
when `m < 2^24`, `e ≤ 253` and `e = 0 ∨ 2^23 ≤ m` (see `F32.WF`).
`f32` of src/compact1/number.rs:11 and of `Operand`, src/type2/operation.rs:6. -/
inductive F32 where
  | nan
  | inf (neg : Bool)
  | fin (neg : Bool) (m e : Nat)
deriving DecidableEq, Repr

namespace F32

/-- Canonical representations: exactly the values that exist in binary32.
`f32` of src/compact1/number.rs:11 and of `Operand`, src/type2/operation.rs:6. -/
def WF : F32 → Prop
  | fin _ m e => m < 2 ^ 24 ∧ e ≤ 253 ∧ (e = 0 ∨ 2 ^ 23 ≤ m)
  | _ => True

instance : DecidablePred WF := fun x => by
  cases x <;> simp only [WF] <;> infer_instance

/-- `a / b` rounded to the nearest natural, ties to even.
Part of the arithmetic of `f32` in src/type2/program.rs:185-198, src/compact1/number.rs:70 and
src/type2/number.rs:8-12. -/
def rne (a b : Nat) : Nat :=
  let q := a / b
  let r := a % b
  if 2 * r < b then q
  else if b < 2 * r then q + 1
  else if q % 2 = 0 then q else q + 1

/-- The number of binary digits of `n`.
Part of the arithmetic of `f32` in src/type2/program.rs:185-198, src/compact1/number.rs:70 and
src/type2/number.rs:8-12. -/
def bitLength (n : Nat) : Nat := if n = 0 then 0 else n.log2 + 1

/-- `± (n / d) * 2^-149` rounded to binary32, for `0 < d`.
Part of the arithmetic of `f32` in src/type2/program.rs:185-198, src/compact1/number.rs:70 and
src/type2/number.rs:8-12. -/
def round (neg : Bool) (n d : Nat) : F32 :=
  let e := bitLength (n / d) - 24
  let m := rne n (d * 2 ^ e)
  let (m, e) := if m = 2 ^ 24 then (2 ^ 23, e + 1) else (m, e)
  if e ≤ 253 then fin neg m e else inf neg

/-- The value of a finite number in units of `2^-149`.
Part of the arithmetic of `f32` in src/type2/program.rs:185-198, src/compact1/number.rs:70 and
src/type2/number.rs:8-12. -/
def units (neg : Bool) (m e : Nat) : Int :=
  if neg then -((m * 2 ^ e : Nat) : Int) else ((m * 2 ^ e : Nat) : Int)

/-- `i as f32`.
Used in src/type2/number.rs:8-11 and src/type2/program.rs:57. -/
def ofInt (i : Int) : F32 := round (decide (i < 0)) (i.natAbs * 2 ^ 149) 1

/-- A 16.16 fixed-point number, `typeface::q32` into `f32`: `i * 2^-16`.
Used in src/type2/number.rs:12. -/
def ofFixed (i : Int) : F32 := round (decide (i < 0)) (i.natAbs * 2 ^ 133) 1

/-- `0.0`.
Used in src/type2/program.rs:53,64. -/
def zero : F32 := fin false 0 0
/-- `1.0`.
Used in src/type2/program.rs:64. -/
def one : F32 := ofInt 1

/-- `-x`.
Used in src/type2/program.rs:195. -/
def neg : F32 → F32
  | nan => nan
  | inf s => inf (!s)
  | fin s m e => fin (!s) m e

/-- `x.abs()`.
Used in src/type2/program.rs:185. -/
def abs : F32 → F32
  | nan => nan
  | inf _ => inf false
  | fin _ m e => fin false m e

/-- `x + y`.
Used in src/type2/program.rs:186. -/
def add : F32 → F32 → F32
  | nan, _ => nan
  | _, nan => nan
  | inf s, inf t => if s = t then inf s else nan
  | inf s, fin .. => inf s
  | fin .., inf t => inf t
  | fin s m e, fin t n f =>
    let z := units s m e + units t n f
    if z = 0 then fin (s && t) 0 0 else round (decide (z < 0)) z.natAbs 1

/-- `x - y`.
Used in src/type2/program.rs:189. -/
def sub (x y : F32) : F32 := add x (neg y)

/-- `x * y`.
Used in src/type2/program.rs:197. -/
def mul : F32 → F32 → F32
  | nan, _ => nan
  | _, nan => nan
  | inf s, inf t => inf (s ^^ t)
  | inf s, fin t n _ => if n = 0 then nan else inf (s ^^ t)
  | fin s m _, inf t => if m = 0 then nan else inf (s ^^ t)
  | fin s m e, fin t n f => round (s ^^ t) (m * 2 ^ e * (n * 2 ^ f)) (2 ^ 149)

/-- `x / y`.
Used in src/type2/program.rs:193. -/
def div : F32 → F32 → F32
  | nan, _ => nan
  | _, nan => nan
  | inf _, inf _ => nan
  | inf s, fin t .. => inf (s ^^ t)
  | fin s .., inf t => fin (s ^^ t) 0 0
  | fin s m e, fin t n f =>
    if n = 0 then (if m = 0 then nan else inf (s ^^ t))
    else round (s ^^ t) (m * 2 ^ e * 2 ^ 149) (n * 2 ^ f)

/-- `x.sqrt()`.  In units of `2^-149` the root of `u` units is `√(u * 2^149)`.
It is bracketed by half units: `r = ⌊2√s⌋`; when it is not exact, a quarter unit
is added, which is on the same side of every rounding boundary.
Used in src/type2/program.rs:198. -/
def sqrt : F32 → F32
  | nan => nan
  | inf s => if s then nan else inf false
  | fin s m e =>
    if m = 0 then fin s 0 0
    else if s then nan
    else
      let q := 4 * (m * 2 ^ e * 2 ^ 149)
      let r := Nat.sqrt q
      if r * r = q then round false r 2 else round false (2 * r + 1) 4

/-- `x == y`.
Used in src/type2/program.rs:57,253. -/
def beq : F32 → F32 → Bool
  | inf s, inf t => s = t
  | fin s m e, fin t n f => units s m e = units t n f
  | _, _ => false

/-- `x <= y`.
Used in src/type2/program.rs:257. -/
def le : F32 → F32 → Bool
  | nan, _ => false
  | _, nan => false
  | inf s, inf t => s || !t
  | inf s, fin .. => s
  | fin .., inf t => !t
  | fin s m e, fin t n f => units s m e ≤ units t n f

/-- `x as i32`: truncation towards zero, saturating, NaN to zero.
Used in src/type2/program.rs:57. -/
def toI32 : F32 → Int
  | nan => 0
  | inf s => if s then -2 ^ 31 else 2 ^ 31 - 1
  | fin s m e =>
    let t : Int := ((m * 2 ^ e / 2 ^ 149 : Nat) : Int)
    let v := if s then -t else t
    if v < -2 ^ 31 then -2 ^ 31 else if 2 ^ 31 - 1 < v then 2 ^ 31 - 1 else v

/-- `± n * 10^x` rounded to binary32.
Part of `str::parse` into `f32`, src/compact1/number.rs:70. -/
def ofDecimal (neg : Bool) (n : Nat) (x : Int) : F32 :=
  if 0 ≤ x then round neg (n * 10 ^ x.toNat * 2 ^ 149) 1
  else round neg (n * 2 ^ 149) (10 ^ (-x).toNat)

end F32

/-- The value of a string of decimal digits.
Part of `str::parse` into `f32`, src/compact1/number.rs:70. -/
def digitsVal (ds : List Char) : Nat :=
  ds.foldl (fun n c => n * 10 + (c.toNat - 48)) 0

/-- An optional sign in front of a number: is it `-`, and the rest.
Part of `str::parse` into `f32`, src/compact1/number.rs:70. -/
def takeSign : List Char → Bool × List Char
  | '-' :: s => (true, s)
  | '+' :: s => (false, s)
  | s => (false, s)

/-- The leading digits and the rest.
Part of `str::parse` into `f32`, src/compact1/number.rs:70. -/
def takeDigits (s : List Char) : List Char × List Char :=
  (s.takeWhile Char.isDigit, s.dropWhile Char.isDigit)

/-- The digits after a point, if there is one, and the rest.
Part of `str::parse` into `f32`, src/compact1/number.rs:70. -/
def takeFraction : List Char → List Char × List Char
  | '.' :: s => takeDigits s
  | s => ([], s)

/-- The exponent at the end of a number: nothing is zero; `none` if malformed.
Part of `str::parse` into `f32`, src/compact1/number.rs:70. -/
def parseExponent : List Char → Option Int
  | [] => some 0
  | c :: s =>
    if c = 'e' ∨ c = 'E' then
      let (neg, s) := takeSign s
      let (digits, s) := takeDigits s
      if digits.isEmpty || !s.isEmpty then none
      else some (if neg then -(digitsVal digits : Int) else (digitsVal digits : Int))
    else none

/-- `str::parse::<f32>()` of the standard library (used in
src/compact1/number.rs:72), by its documented grammar, with the documented
guarantee that the result is the nearest binary32 value.  The literals `inf`,
`infinity` and `nan` are left out: the caller never spells them. -/
def parseF32 (s : List Char) : Option F32 :=
  let (neg, s) := takeSign s
  let (int, s) := takeDigits s
  let (frac, s) := takeFraction s
  if int.isEmpty && frac.isEmpty then none
  else match parseExponent s with
    | some x => some (F32.ofDecimal neg (digitsVal (int ++ frac)) (x - (frac.length : Int)))
    | none => none

end PS
