/-!
# Stream table

Model of `/repo/go/proxy/lookup.go`, the table both `handler.Handler` and the wasmRS host and guest use
to find the stream a frame belongs to. The doubly linked list is modelled with its pointers: the heap
is a list of cells, a pointer is an index into it. `Add` and `Remove` run under the mutex, so each is
one step. `Get` does not take the mutex (lookup.go:18-24); the model treats it as one step as well, so
a `Get` that runs during an `Add` or `Remove` is not covered.
-/

namespace Iota.Lookup

/-- `node`. lookup.go:12-15. The stream is represented by the result of its `StreamID()` and a value
that tells different streams apart. -/
structure Node (S : Type) where
  prev : Option Nat
  next : Option Nat
  id : UInt32
  stream : S
  deriving DecidableEq, Repr

/-- `Lookup`. lookup.go:6-10, with the heap of nodes ever allocated by `Add`. -/
structure Table (S : Type) where
  heap : List (Node S)
  head : Option Nat
  tail : Option Nat
  deriving DecidableEq, Repr

variable {S : Type}

/-- The zero value of `Lookup`. -/
def empty : Table S := { heap := [], head := none, tail := none }

/-- `n := l.head; n != nil; n = n.next` with a test, from pointer `p`. lookup.go:67-74. The loop runs
at most `fuel` times; `none` means it had not ended by then. Dangling pointers cannot occur in Go; the
model stops the walk there. -/
def findFrom (heap : List (Node S)) (id : UInt32) : Nat → Option Nat → Option (Option Nat)
  | _, none => some none
  | 0, some _ => none
  | fuel + 1, some a =>
    match heap[a]? with
    | none => some none
    | some n => if n.id = id then some (some a) else findFrom heap id fuel n.next

/-- `find`. lookup.go:67-74. A walk that visits more nodes than exist never ends. -/
def find (l : Table S) (id : UInt32) : Option (Option Nat) :=
  findFrom l.heap id l.heap.length l.head

/-- `for currentNode.next != nil { currentNode = currentNode.next }`. lookup.go:37-40 -/
def lastFrom (heap : List (Node S)) : Nat → Nat → Option Nat
  | 0, _ => none
  | fuel + 1, a =>
    match heap[a]? with
    | none => none
    | some n =>
      match n.next with
      | none => some a
      | some b => lastFrom heap fuel b

/-- Assign to the `next` field of node `a`. -/
def setNext (heap : List (Node S)) (a : Nat) (p : Option Nat) : List (Node S) :=
  heap.modify a fun n => { n with next := p }

/-- Assign to the `prev` field of node `a`. -/
def setPrev (heap : List (Node S)) (a : Nat) (p : Option Nat) : List (Node S) :=
  heap.modify a fun n => { n with prev := p }

/-- `Add`. lookup.go:26-45. `none`: the walk to the end does not terminate. -/
def add (l : Table S) (id : UInt32) (s : S) : Option (Table S) :=
  let a := l.heap.length
  match l.head with
  | none => some { heap := l.heap ++ [⟨none, none, id, s⟩], head := some a, tail := some a }
  | some h =>
    match lastFrom l.heap l.heap.length h with
    | none => none
    | some c =>
      some { heap := setNext (l.heap ++ [⟨some c, none, id, s⟩]) c (some a),
             head := some h, tail := some a }

/-- `if p != nil { p.next = v }` -/
def setNextIf (heap : List (Node S)) (p : Option Nat) (v : Option Nat) : List (Node S) :=
  match p with
  | some a => setNext heap a v
  | none => heap

/-- `if p != nil { p.prev = v }` -/
def setPrevIf (heap : List (Node S)) (p : Option Nat) (v : Option Nat) : List (Node S) :=
  match p with
  | some a => setPrev heap a v
  | none => heap

/-- `Remove`. lookup.go:47-65 -/
def remove (l : Table S) (id : UInt32) : Option (Table S) :=
  match find l id with
  | none => none
  | some none => some l
  | some (some a) =>
    match l.heap[a]? with
    | none => some l
    | some n =>
      some { l with heap := setPrevIf (setNextIf l.heap n.prev n.next) n.next n.prev }

/-- `Get`. lookup.go:18-24. Outer `none`: the walk does not terminate. -/
def get (l : Table S) (id : UInt32) : Option (Option S) :=
  match find l id with
  | none => none
  | some none => some none
  | some (some a) => some (l.heap[a]?.map Node.stream)

/-- Calls that change the table. -/
inductive Op (S : Type) where
  | add (id : UInt32) (s : S)
  | remove (id : UInt32)
  deriving DecidableEq, Repr

/-- One call. -/
def apply (l : Table S) : Op S → Option (Table S)
  | .add id s => Lookup.add l id s
  | .remove id => Lookup.remove l id

/-- A history of calls on a new table. -/
def run : Table S → List (Op S) → Option (Table S)
  | l, [] => some l
  | l, o :: os => (apply l o).bind fun l' => run l' os

end Iota.Lookup
