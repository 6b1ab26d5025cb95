import Verif.Model.Codegen

/-!
# `wasmrs invoke`

The command that calls an operation of a mesh with arguments read as JSON:
/repo/go/transport/wasmrs/cmd/wasmrs/commands/invoke.go. Parsing and printing of JSON is left out: the model begins
with what `json.Unmarshal` makes of the input and ends with the value given to `json.Marshal`. The pattern of bits of a
number is that of the `float64` which `json.Unmarshal` makes of every number.
-/

namespace Iota.Invoke
open Iota.Go Iota.Msgpack Iota.Codegen

/-- What `json.Unmarshal` stores into an `interface{}`. invoke.go:46-49. Strings are their bytes in UTF-8. An object is a
Go map: its keys differ, and the list has them in the order in which `range` visits them. -/
inductive J
  | null
  | bool (b : Bool)
  | num (bits : UInt64)
  | str (s : Bytes)
  | arr (l : List J)
  | obj (l : List (Bytes × J))

/-- Head of a string of `n` bytes, as written by github.com/vmihailenco/msgpack/v5, whose source is not part of
/repo: the shortest of the format. invoke.go:50 -/
def strHead (n : Nat) : Bytes :=
  if n < 32 then [0xa0 + UInt8.ofNat n]
  else if n < 256 then 0xd9 :: beBytes 1 n
  else if n < 65536 then 0xda :: beBytes 2 n
  else 0xdb :: beBytes 4 n

/-- Head of an array of `n` elements. invoke.go:50 -/
def arrHead (n : Nat) : Bytes :=
  if n < 16 then [0x90 + UInt8.ofNat n]
  else if n < 65536 then 0xdc :: beBytes 2 n
  else 0xdd :: beBytes 4 n

/-- Head of a map with `n` entries. invoke.go:50 -/
def mapHead (n : Nat) : Bytes :=
  if n < 16 then [0x80 + UInt8.ofNat n]
  else if n < 65536 then 0xde :: beBytes 2 n
  else 0xdf :: beBytes 4 n

mutual
/-- `msgpack.Marshal` of such a value. invoke.go:50. A `float64` is written with all its bits, whether or not it is a
whole number. -/
def marshal : J → Bytes
  | .null => [0xc0]
  | .bool false => [0xc2]
  | .bool true => [0xc3]
  | .num b => 0xcb :: beBytes 8 b.toNat
  | .str s => strHead s.length ++ s
  | .arr l => arrHead l.length ++ marshalL l
  | .obj l => mapHead l.length ++ marshalM l

/-- The elements of an array. invoke.go:50 -/
def marshalL : List J → Bytes
  | [] => []
  | j :: l => marshal j ++ marshalL l

/-- The entries of a map. invoke.go:50 -/
def marshalM : List (Bytes × J) → Bytes
  | [] => []
  | (k, j) :: l => strHead k.length ++ k ++ (marshal j ++ marshalM l)
end

/-- How the command ends. -/
inductive Outcome
  /-- the value is printed (invoke.go:78) and `Run` returns nil -/
  | printed (j : J)
  /-- `Run` returns an error -/
  | failed (e : String)
  /-- `Run` panics -/
  | crashed

/-- The operations which the mesh can call, by namespace and name, with what becomes of a request: the data of the
response, or an error. `m.exports`: /repo/go/transport/wasmrs/mesh/mesh.go:24-25 -/
abbrev Exports := Bytes → Bytes → Option (Bytes → Res Bytes)

/-- From the request on. invoke.go:58-80. `RequestResponse` of the mesh returns nil if it does not know the operation
(/repo/go/transport/wasmrs/mesh/mesh.go:62-75), and `Block` of the nil interface panics; an error of the operation is given to
`log.Panic` (invoke.go:59-61). The metadata has no influence: the mesh overwrites it. -/
def call (unmarshal : Bytes → Option J) (op : Option (Bytes → Res Bytes)) (input : Bytes) : Outcome :=
  match op with
  | none => .crashed
  | some g =>
    match g input with
    | .ok out =>
      match unmarshal out with
      | some j => .printed j
      | none => .failed "could not parse module output"
    | .err _ => .crashed
    | .panic => .crashed

/-- `InvokeCmd.Run`. invoke.go:27-81. `loaded` is the result of `LoadModules`, `stdin` the parsed input, if it is JSON,
`unmarshal` the reading of a MessagePack value by the library. -/
def run (unmarshal : Bytes → Option J) (loaded : Res Exports) (stdin : Option J) (ns op : Bytes) : Outcome :=
  match loaded with
  | .err e => .failed e
  | .panic => .crashed
  | .ok exports =>
    match stdin with
    | none => .failed "could not parse stdin"
    | some j => call unmarshal (exports ns op) (marshal j)

/-- The generated wrapper of an operation with arguments: they are decoded into the struct `n` and an error of this ends
the call, otherwise the handler is called. /repo/codegen/src/tinygo/wrappers_visitor.ts:217-228, 256-261. With `fuel` enough for
the input, `fromBytes` has a result. -/
def serve (env : Env) (lib : Lib) (fuel n : Nat) (handler : GV → Res Bytes) (data : Bytes) : Res Bytes :=
  match fromBytes env lib fuel n data with
  | some (.ok v) => handler v
  | some (.err e) => .err e
  | some .panic => .panic
  | none => .panic

end Iota.Invoke
