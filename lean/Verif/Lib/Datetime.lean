import Verif.Misc.Double

/-
Module datetime: modules/datetime.kos:7-213.

Arguments are integers or void; floats, which are rounded down first, and other types are left out.  Integers have 64 bits, overflow is a
separate outcome.
-/
namespace Verif.Datetime

/-- Result of a Kos expression; `ub` is integer overflow, which is not defined in C (core/kos_vm.c:46-215). -/
inductive R (α : Type)
  | ok (a : α)
  | thr
  | ub
  deriving Repr, DecidableEq

def R.bind {α β : Type} (r : R α) (k : α → R β) : R β :=
  match r with
  | .ok a => k a
  | .thr => .thr
  | .ub => .ub

instance : Monad R where
  pure := .ok
  bind := R.bind

/-- An integer result. -/
def ck (x : Int) : R Int := if -2 ^ 63 ≤ x ∧ x < 2 ^ 63 then .ok x else .ub

def add (a b : Int) : R Int := ck (a + b)
def sub (a b : Int) : R Int := ck (a - b)
def mul (a b : Int) : R Int := ck (a * b)

/-- modules/datetime.kos:7-13.  `>>` rounds down, `/` truncates. -/
def firstDayFromYear (year : Int) : R Int := do
  let a ← mul 365 (← sub year 1970)
  let b ← add a ((← sub year 1969) / 4)
  let c ← sub b ((← sub year 1901).tdiv 100)
  add c ((← sub year 1601).tdiv 400)

/-- modules/datetime.kos:15-18 -/
def isLeapYear (year : Int) : Bool := year.tmod 4 == 0 && (year.tmod 100 != 0 || year.tmod 400 == 0)

/-- modules/datetime.kos:20 -/
def firstDay : List Int := [0, 31, 59, 90, 120, 151, 181, 212, 243, 273, 304, 334, 365]
/-- modules/datetime.kos:21 -/
def firstDayLeap : List Int := [0, 31, 60, 91, 121, 152, 182, 213, 244, 274, 305, 335, 366]

def firstDays (leap : Bool) : List Int := if leap then firstDayLeap else firstDay

/-- Element of an array; an exception if the index is out of range. -/
def elem (l : List Int) (i : Nat) : R Int :=
  match l[i]? with
  | some x => .ok x
  | none => .thr

/-- modules/datetime.kos:30-47, the loop; at most `n` passes. -/
def monthLoop (days : List Int) (d : Int) : Nat → Nat → Nat → R (Nat × Int)
  | 0, _, _ => .ub
  | n + 1, b, e =>
    if b + 1 < e then do
      let mid := (b + e) / 2
      let day ← elem days mid
      if d = day then .ok (mid, day)
      else if d < day then monthLoop days d n b mid
      else monthLoop days d n mid e
    else do
      let day ← elem days b
      .ok (b, day)

/-- modules/datetime.kos:23-48; the distance between `begin` and `end`, at first 12, decreases in every pass. -/
def getMonth (d : Int) (leap : Bool) : R (Nat × Int) := monthLoop (firstDays leap) d 12 0 12

/-- modules/datetime.kos:57-68 -/
def dateCheck (value : Option Int) (min max : Int) : R Int :=
  match value with
  | none => .thr
  | some v => if v < min ∨ v > max then .thr else .ok v

/-- The properties of the object. -/
structure Fields where
  us : Option Int
  second : Int
  minute : Int
  hour : Int
  day : Int
  month : Int
  year : Int
  leap : Bool
  timestamp : Int
  deriving Repr, DecidableEq

/-- `integer(floor(timestamp / 365.2425))`, modules/datetime.kos:136, for an integer which is not negative and below 2^53.  Division is that of
doubles (core/kos_vm.c:246-251), and the literal is the double nearest to 365.2425. -/
def yearsBefore (d : Nat) : Nat := if d = 0 then 0 else Dbl.floor (Dbl.divide d (Dbl.rn 3652425 10000))

/-- modules/datetime.kos:139-161: the year and its first day.  Line 154: `year & 3` is the remainder of division by 4. -/
def fixYear (year0 dayTs ts : Int) : R (Int × Bool × Int) :=
  if dayTs > ts then do
    let year ← sub year0 1
    let leap := isLeapYear year
    let dayTs ← sub dayTs (if leap then 366 else 365)
    .ok (year, leap, dayTs)
  else do
    let leap := isLeapYear year0
    let daysInYear := if leap then 366 else 365
    let next ← add dayTs daysInYear
    if next ≤ ts then do
      let year ← add year0 1
      let dayTs ← add dayTs daysInYear
      .ok (year, if leap || year % 4 != 0 then false else isLeapYear year, dayTs)
    else .ok (year0, leap, dayTs)

/-- modules/datetime.kos:126-169, for a timestamp which is not negative. -/
def fromTimestamp (timestamp : Int) : R Fields := do
  let us := timestamp.tmod 1000000
  let t := timestamp.tdiv 1000000
  let second := t.tmod 60
  let t := t.tdiv 60
  let minute := t.tmod 60
  let t := t.tdiv 60
  let hour := t.tmod 24
  let t := t.tdiv 24
  let year0 ← add (yearsBefore t.toNat) 1970
  let dayTs ← firstDayFromYear year0
  let (year, leap, dayTs) ← fixYear year0 dayTs t
  let t ← sub t dayTs
  let (monthIdx, first) ← getMonth t leap
  let month ← add monthIdx 1
  let day ← add (← sub t first) 1
  .ok ⟨some us, second, minute, hour, day, month, year, leap, timestamp⟩

/-- modules/datetime.kos:179-181 -/
def checkUs : Option Int → R (Option Int)
  | none => .ok none
  | some u => (dateCheck (some u) 0 999999).bind fun u => .ok (some u)

/-- modules/datetime.kos:207-209 -/
def addUs (t : Int) : Option Int → R Int
  | none => .ok t
  | some u => if u = 0 then .ok t else add t u

/-- modules/datetime.kos:172-211 -/
def fromFields (year month day hour minute second us : Option Int) : R Fields := do
  let year ← dateCheck year 1970 290307
  let month ← dateCheck month 1 12
  let day ← dateCheck day 1 31
  let hour ← dateCheck hour 0 23
  let minute ← dateCheck minute 0 59
  let second ← dateCheck (some (second.getD 0)) 0 59
  let us ← checkUs us
  let leap := isLeapYear year
  let t ← firstDayFromYear year
  let a ← elem (firstDays leap) (month - 1).toNat
  let t ← add t a
  let b ← elem (firstDays leap) month.toNat
  let max ← add (← sub b a) 1
  let _ ← dateCheck (some day) 1 max
  let t ← add t (← sub day 1)
  let t ← add (← mul t 24) hour
  let t ← add (← mul t 60) minute
  let t ← add (← mul t 60) second
  let t ← mul t 1000000
  let t ← addUs t us
  .ok ⟨us, second, minute, hour, day, month, year, leap, t⟩

/-- modules/datetime.kos:106-124 and the rest, for timestamps which are not negative. -/
def construct (year month day hour minute second us timestamp : Option Int) : R Fields :=
  if timestamp = none ∧ month = none ∧ day = none ∧ hour = none ∧ minute = none ∧ second = none ∧ us = none then
    match year with
    | none => fromFields none none none none none none none
    | some t => fromTimestamp t
  else
    match timestamp with
    | none => fromFields year month day hour minute second us
    | some t =>
      if year ≠ none ∨ month ≠ none ∨ day ≠ none ∨ hour ≠ none ∨ minute ≠ none ∨ second ≠ none ∨ us ≠ none then .thr
      else fromTimestamp t


end Verif.Datetime
