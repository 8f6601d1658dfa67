import Verif.Model.Operator
import Verif.Model.Index
/-!
# Dictionaries
-/
namespace PS

/-- `compact1::Operations`, src/compact1/operation.rs:11-13: a `HashMap`,
observed through lookups only (its iteration order is not specified). -/
structure Operations where
  map : Operator → Option (List Number)

namespace Operations

/-- `HashMap::new()`.
Used in src/compact1/operation.rs:56. -/
def empty : Operations := ⟨fun _ => none⟩

/-- `HashMap::insert`.
Used in src/compact1/operation.rs:60. -/
def insert (o : Operations) (operator : Operator) (operands : List Number) : Operations :=
  ⟨fun x => if x = operator then some operands else o.map x⟩

/-- `HashMap::contains_key`.
Used in src/compact1/font_set/mod.rs:125. -/
def containsKey (o : Operations) (operator : Operator) : Bool := (o.map operator).isSome

/-- `Operations::get`, src/compact1/operation.rs:20-25. -/
def get (o : Operations) (operator : Operator) : Option (List Number) :=
  match o.map operator with
  | some operands => some operands
  | none => operator.default

/-- `Operations::get_single`, src/compact1/operation.rs:29-37. -/
def getSingle (o : Operations) (operator : Operator) : Option Number :=
  match o.get operator with
  | some (a :: _) => some a
  | _ => none

/-- `Operations::get_double`, src/compact1/operation.rs:41-49. -/
def getDouble (o : Operations) (operator : Operator) : Option (Number × Number) :=
  match o.get operator with
  | some (a :: b :: _) => some (a, b)
  | _ => none

/-- Is this the first byte of an operand?  The pattern of
src/compact1/operation.rs:81. -/
def isOperandByte (b : UInt8) : Bool :=
  b == 0x1c || b == 0x1d || b == 0x1e || (0x20 ≤ b && b ≤ 0xfe)

/-- `Operation::read`, src/compact1/operation.rs:76-93, with its `loop` bounded
by `fuel` iterations. -/
def readOperationLoop (fuel : Nat) (operands : List Number) : Rd (Operator × List Number) :=
  match fuel with
  | 0 => Rd.panic .fuel
  | fuel + 1 => do
    let code ← Rd.peek Rd.u8
    if isOperandByte code then do
      let operand ← Number.read
      readOperationLoop fuel (operands ++ [operand])
    else do
      let code ← (if code = 0x0c then Rd.u16 else do
        let b ← Rd.u8
        pure (UInt16.ofNat b.toNat) : Rd UInt16)
      let operator ← Rd.ofRes (Operator.from code)
      pure (operator, operands)

/-- `Operation::read`, src/compact1/operation.rs:76-93.  Every iteration takes a
byte, so the tape length bounds their number. -/
def readOperation : Rd (Operator × List Number) := do
  let size ← Rd.size
  readOperationLoop (size + 1) []

/-- The loop of `Operations::read`, src/compact1/operation.rs:57-69, bounded by
`fuel` iterations: an end of file anywhere ends it successfully. -/
def readLoop (fuel : Nat) (operations : Operations) : Rd Operations :=
  match fuel with
  | 0 => Rd.panic .fuel
  | fuel + 1 => fun env p =>
    match readOperation env p with
    | (.ok (operator, operands), p') =>
      readLoop fuel (operations.insert operator operands) env p'
    | (.err .eof, p') => (.ok operations, p')
    | (.err e, p') => (.err e, p')
    | (.panic x, p') => (.panic x, p')

/-- `Operations::read`, src/compact1/operation.rs:52-72. -/
def read : Rd Operations := do
  let size ← Rd.size
  readLoop (size + 1) empty

/-- `Cursor::new(chunk).take::<Operations>()`,
src/compact1/index/dictionaries.rs:17, src/compact1/font_set/character_name_keyed.rs:27
and src/compact1/font_set/character_id_keyed.rs:108. -/
def ofBytes (cfg : Config) (chunk : List UInt8) : Res Operations :=
  (read { cfg, data := chunk } 0).1

end Operations

/-- `Dictionaries::get`, src/compact1/index/dictionaries.rs:15-18.  Indexing
beyond the end panics (through `debug_assert!` or the indexing itself). -/
def Index.getOperations (cfg : Config) (dictionaries : Index) (index : Nat) : Res Operations :=
  match dictionaries.data[index]? with
  | some chunk => Operations.ofBytes cfg chunk
  | none => .panic .bounds

/-- The loop of `TryFrom<&Dictionaries>`, src/compact1/index/dictionaries.rs:24-30,
for the entries `index, …, index + n - 1`. -/
def Index.toOperationsFrom (cfg : Config) (dictionaries : Index) (index n : Nat) :
    Res (List Operations) :=
  match n with
  | 0 => .ok []
  | n + 1 =>
    match dictionaries.getOperations cfg index with
    | .ok operations =>
      match dictionaries.toOperationsFrom cfg (index + 1) n with
      | .ok rest => .ok (operations :: rest)
      | .err e => .err e
      | .panic x => .panic x
    | .err e => .err e
    | .panic x => .panic x

/-- `TryFrom<&Dictionaries> for Vec<Operations>`,
src/compact1/index/dictionaries.rs:21-31. -/
def Index.toOperations (cfg : Config) (dictionaries : Index) : Res (List Operations) :=
  dictionaries.toOperationsFrom cfg 0 dictionaries.data.length

end PS
