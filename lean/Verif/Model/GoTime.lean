import Verif.Model.Msgpack

/-!
# Times as text

Model of `Format` and `Parse` of Go's package `time` for the layout `time.RFC3339Nano`,
`2006-01-02T15:04:05.999999999Z07:00`, which `/repo/go/transform/transform.go` (257-275),
`/repo/go/msgpack/convert/convert.go` (42-67) and `/repo/go/msgpack/decoder.go` (378-389) use. The package is not part of
the repository; the definitions follow its documentation and the functions `Time.AppendFormat`, `parse`, `getnum`,
`parseNanoseconds` and `Date` of Go 1.19, for which `/repo/go/go.mod` asks.

A time is an instant (`Msgpack.Time`) and the offset of its location in seconds east of UTC; the name of the location
and the monotonic clock reading are left out. `Parse` uses the local location if it has the offset of the text at that
time and else one made for the offset; the offset is the same. Go 1.19 also takes a sign in front of one digit for
the hours and the minutes of the offset, later versions refuse offsets of more than 24 hours; `Format` makes neither of a
location of the time zone database.
-/

namespace Iota.GoTime
open Iota.Go Iota.Msgpack

/-! ## The calendar -/

/-- Leap years of the Gregorian calendar, used for all years. -/
def leap (y : Int) : Bool := y % 4 = 0 && (y % 100 ≠ 0 || y % 400 = 0)

/-- The lengths of the months of a year. -/
def months (y : Int) : List Nat := [31, if leap y then 29 else 28, 31, 30, 31, 30, 31, 31, 30, 31, 30, 31]

/-- The days from 1 January of year 1 to 1 January of year `y`. -/
def yearStart (y : Int) : Int := 365 * (y - 1) + (y - 1) / 4 - (y - 1) / 100 + (y - 1) / 400

/-- The days from 1 January of year 1 to a day; months and days count from 1. -/
def dayNumber (y : Int) (m d : Nat) : Int := yearStart y + (((months y).take (m - 1)).sum + (d - 1) : Nat)

/-- The year of a day counted from 1 January of year 1, and the days since it began: cycles of 400, 100, 4 years and
one. -/
def yearOf (z : Int) : Int × Nat :=
  let d := z % 146097
  let n100 := min (d / 36524) 3
  let d := d - 36524 * n100
  let n4 := d / 1461
  let d := d - 1461 * n4
  let n1 := min (d / 365) 3
  (1 + 400 * (z / 146097) + 100 * n100 + 4 * n4 + n1, (d - 365 * n1).toNat)

/-- The month, from 1, and the day in it, from 0, for months of these lengths. -/
def split : List Nat → Nat → Nat × Nat
  | [], d => (1, d)
  | l :: ls, d => if d < l then (1, d) else ((split ls (d - l)).1 + 1, (split ls (d - l)).2)

/-- Year, month and day. -/
def civil (z : Int) : Int × Nat × Nat :=
  ((yearOf z).1, (split (months (yearOf z).1) (yearOf z).2).1, (split (months (yearOf z).1) (yearOf z).2).2 + 1)

/-- The days from 1 January of year 1 to 1 January 1970. -/
def epoch : Int := 719162

/-! ## Format -/

/-- The decimal digits of a number. -/
def digits (n : Nat) : Bytes := if n < 10 then [UInt8.ofNat (48 + n)] else digits (n / 10) ++ [UInt8.ofNat (48 + n % 10)]

/-- `appendInt` for a number that is not negative: padded with zeros. -/
def pad (w n : Nat) : Bytes := List.replicate (w - (digits n).length) 48 ++ digits n

/-- `appendInt` -/
def padInt (w : Nat) (n : Int) : Bytes := if n < 0 then 45 :: pad w n.natAbs else pad w n.toNat

/-- The fraction: nine digits without the zeros at the end, nothing if there are only zeros. -/
def fraction (nsec : Nat) : Bytes :=
  if nsec = 0 then [] else 46 :: ((pad 9 nsec).reverse.dropWhile (· = 48)).reverse

/-- The offset in hours and minutes. Seconds are cut off. -/
def zone (off : Int) : Bytes :=
  if off = 0 then [90]
  else (if off.tdiv 60 < 0 then 45 else 43) :: (pad 2 ((off.tdiv 60).natAbs / 60) ++ 58 :: pad 2 ((off.tdiv 60).natAbs % 60))

/-- The clock of a location. -/
def clock (t : Time) (off : Int) : Int := t.sec + off

/-- The year in the location. -/
def year (t : Time) (off : Int) : Int := (civil (clock t off / 86400 + epoch)).1

/-- `t.Format(time.RFC3339Nano)` -/
def format (t : Time) (off : Int) : Bytes :=
  padInt 4 (year t off) ++ 45 :: (pad 2 (civil (clock t off / 86400 + epoch)).2.1 ++ 45 ::
    (pad 2 (civil (clock t off / 86400 + epoch)).2.2 ++ 84 ::
      (pad 2 ((clock t off % 86400).toNat / 3600) ++ 58 :: (pad 2 ((clock t off % 86400).toNat % 3600 / 60) ++ 58 ::
        (pad 2 ((clock t off % 86400).toNat % 60) ++ (fraction t.nsec ++ zone off))))))

/-! ## Parse -/

def isDigit (b : UInt8) : Bool := 48 ≤ b && b ≤ 57

def digit (b : UInt8) : Nat := b.toNat - 48

/-- The number with these digits. -/
def value (ds : Bytes) : Nat := ds.foldl (fun a b => 10 * a + digit b) 0

/-- `getnum`: two digits, or one if that is allowed. -/
def getnum (fixed : Bool) : Bytes → Option (Nat × Bytes)
  | a :: b :: r =>
    if isDigit a then
      if isDigit b then some (10 * digit a + digit b, r) else if fixed then none else some (digit a, b :: r)
    else none
  | [a] => if isDigit a && !fixed then some (digit a, []) else none
  | [] => none

/-- Four digits. -/
def getyear : Bytes → Option (Nat × Bytes)
  | a :: b :: c :: d :: r =>
    if isDigit a && isDigit b && isDigit c && isDigit d then some (value [a, b, c, d], r) else none
  | _ => none

/-- `skip`: this character comes next. -/
def skip (c : UInt8) : Bytes → Option Bytes
  | a :: r => if a = c then some r else none
  | [] => none

/-- `parseNanoseconds`: the first nine digits count. -/
def nanos (ds : Bytes) : Nat := value (ds.take 9) * 10 ^ (9 - (ds.take 9).length)

/-- A fraction, if there is one. -/
def getfraction : Bytes → Nat × Bytes
  | p :: d :: r =>
    if (p = 46 || p = 44) && isDigit d then (nanos ((d :: r).takeWhile isDigit), (d :: r).dropWhile isDigit) else (0, p :: d :: r)
  | r => (0, r)

/-- The offset. -/
def getzone : Bytes → Option (Int × Bytes)
  | [] => none
  | s :: r =>
    if s = 90 then some (0, r)
    else do
      let (h, r) ← getnum true r
      let r ← skip 58 r
      let (m, r) ← getnum true r
      if s = 43 then some (((h * 60 + m) * 60 : Nat), r)
      else if s = 45 then some (-((h * 60 + m) * 60 : Nat), r)
      else none

/-- `time.Parse(time.RFC3339Nano, s)`: the instant and its offset. -/
def parse (s : Bytes) : Option (Time × Int) := do
  let (y, s) ← getyear s
  let s ← skip 45 s
  let (mo, s) ← getnum true s
  let s ← skip 45 s
  let (d, s) ← getnum true s
  let s ← skip 84 s
  let (h, s) ← getnum false s
  let s ← skip 58 s
  let (mi, s) ← getnum true s
  let s ← skip 58 s
  let (se, s) ← getnum true s
  let (n, s) := getfraction s
  let (off, s) ← getzone s
  if s ≠ [] then none
  else if mo < 1 ∨ 12 < mo ∨ d < 1 ∨ (months y).getD (mo - 1) 0 < d ∨ 24 ≤ h ∨ 60 ≤ mi ∨ 60 ≤ se then none
  else some (⟨(dayNumber y mo d - epoch) * 86400 + (h * 3600 + mi * 60 + se : Nat) - off, n⟩, off)

/-! ## The functions of the repository -/

/-- What `time.Parse` returns together with an error: `time.Time{}`, midnight of 1 January of year 1 in UTC. -/
def zeroTime : Time × Int := (⟨-epoch * 86400, 0⟩, 0)

/-- `StringToTime`. convert.go:42-47 -/
def stringToTime : Bytes × Option String → (Time × Int) × Option String
  | (_, some e) => (zeroTime, some e)
  | (s, none) =>
    match parse s with
    | some t => (t, none)
    | none => (zeroTime, some "parsing time")

/-- `StringToTimePtr`. convert.go:49-55. A pointer is an `Option`. -/
def stringToTimePtr : Option Bytes × Option String → Option (Time × Int) × Option String
  | (_, some e) => (none, some e)
  | (none, none) => (none, none)
  | (some s, none) =>
    match parse s with
    | some t => (some t, none)
    | none => (some zeroTime, some "parsing time")

/-- `TimeToString`. convert.go:57-59 -/
def timeToString (t : Time × Int) : Bytes := format t.1 t.2

/-- `TimeToStringPtr`. convert.go:61-67 -/
def timeToStringPtr : Option (Time × Int) → Option Bytes
  | none => none
  | some t => some (format t.1 t.2)

/-- The standard library as the decoder uses it. -/
def lib (narrow : Nat → Nat) : Lib := ⟨narrow, fun s => (parse s).map Prod.fst⟩

end Iota.GoTime
