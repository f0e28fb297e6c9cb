import Verif.Common
import Verif.Numerals
import Verif.Text
import Verif.Timestamps.Calendar
import Verif.EventStream.Float64

/-!
# Timestamps

Models `ensure_utc`, `epoch_seconds_to_datetime`, `serialize_rfc3339` and `serialize_epoch_seconds`
(`smithy_core/utils.py` lines 18-31, 53-67, 187-213) and `TimestampFormat.serialize` and
`TimestampFormat.deserialize` (`smithy_core/types.py` lines 147-182), with what they use of Python 3.11:
`datetime` (`datetime.py`), `format_datetime` and `parsedate_to_datetime` (`email/utils.py`,
`email/_parseaddr.py`).  `datetime` is usually the C implementation; where the two differ (texts that are
no timestamps of any kind) the model follows `datetime.py`, but takes only ASCII digits for digits, as C
does.
-/

set_option autoImplicit false

namespace Verif.Timestamps

open Verif.EventStream (rnd truncRat roundHalfEven)
open Verif.Numerals (natText natValue)

abbrev Text := List Char

/-- The exceptions: `ValueError`, `OverflowError`, `ExpectationNotMetError`. -/
inductive Err where
  | value | overflow | expectation
deriving Repr, DecidableEq

/-- A `datetime`: the fields, and the distance from UTC in microseconds (`none` if naive).
Simplification: a `tzinfo` is represented by what its `utcoffset` returns for this `datetime`; `fold`
is left out. -/
structure DateTime where
  date : Date
  hour : Nat
  minute : Nat
  second : Nat
  micro : Nat
  offset : Option Int
deriving Repr, DecidableEq

/-- `-timedelta(1) < offset < timedelta(1)`, in microseconds; datetime.py lines 503-513. -/
def offsetOk (offset : Int) : Bool := decide (-86400000000 < offset) && decide (offset < 86400000000)

/-- `_check_date_fields`, datetime.py lines 515-526. -/
def dateOk (d : Date) : Bool :=
  decide (1 ≤ d.year) && decide (d.year ≤ 9999) && decide (1 ≤ d.month) && decide (d.month ≤ 12) &&
    decide (1 ≤ d.day) && decide (d.day ≤ daysInMonth d.year d.month)

/-- `_check_time_fields`, datetime.py lines 528-543. -/
def timeOk (hour minute second micro : Nat) : Bool :=
  decide (hour ≤ 23) && decide (minute ≤ 59) && decide (second ≤ 59) && decide (micro ≤ 999999)

/-- The constructor `datetime(...)`, datetime.py lines 1673-1705. -/
def make (d : Date) (hour minute second micro : Nat) (offset : Option Int) : Except Err DateTime :=
  if dateOk d && timeOk hour minute second micro then .ok ⟨d, hour, minute, second, micro, offset⟩
  else .error .value

/-- The microseconds from the beginning of the year 1 to the time on the clock: `timedelta(self.toordinal(),
hours=..., ...)` less one day, datetime.py lines 2181-2186. -/
def wall (dt : DateTime) : Int :=
  (((toOrdinal dt.date : Int) - 1) * 86400 + dt.hour * 3600 + dt.minute * 60 + dt.second) * 1000000 + dt.micro

/-- The end of `datetime.__add__`, datetime.py lines 2186-2194: the `datetime` for a number of microseconds,
or `OverflowError`. -/
def ofWall (n : Int) (offset : Option Int) : Except Err DateTime :=
  let days := n / 86400000000 + 1
  let rest := (n % 86400000000).toNat
  if 0 < days ∧ days ≤ 3652059 then
    .ok ⟨ofOrdinal days.toNat, rest / 3600000000, rest / 60000000 % 60, rest / 1000000 % 60, rest % 1000000, offset⟩
  else .error .overflow

/-- `ensure_utc`, utils.py lines 18-31; `astimezone` as in datetime.py lines 1968-1994.  (If the time zone
is the very object `UTC` the value is returned as it is, which is what the subtraction of 0 gives.) -/
def ensureUtc (dt : DateTime) : Except Err DateTime :=
  match dt.offset with
  | none => .ok { dt with offset := some 0 }
  | some o => ofWall (wall dt - o) (some 0)

/-! ## Writing -/

/-- `'%0wd' % n`. -/
def pad (w n : Nat) : Text := List.replicate (w - (natText n).length) '0' ++ natText n

/-- `%Y` of `strftime`: padded to four digits or not, depending on the C library (glibc does not pad). -/
def yearText (padYear : Bool) (y : Nat) : Text := if padYear then pad 4 y else natText y

/-- `serialize_rfc3339`, utils.py lines 187-199, with the formats of lines 12-14. -/
def serializeRfc3339 (padYear : Bool) (dt : DateTime) : Text :=
  yearText padYear dt.date.year ++ '-' :: (pad 2 dt.date.month ++ '-' :: (pad 2 dt.date.day ++ 'T' ::
    (pad 2 dt.hour ++ ':' :: (pad 2 dt.minute ++ ':' :: (pad 2 dt.second ++
      (if dt.micro ≠ 0 then '.' :: (pad 6 dt.micro ++ ['Z']) else ['Z']))))))

/-- The names of the days, email/utils.py line 235, by the number of the day (Monday is 0). -/
def dayName : Nat → Text
  | 0 => ['M', 'o', 'n'] | 1 => ['T', 'u', 'e'] | 2 => ['W', 'e', 'd'] | 3 => ['T', 'h', 'u']
  | 4 => ['F', 'r', 'i'] | 5 => ['S', 'a', 't'] | _ => ['S', 'u', 'n']

/-- The names of the months, email/utils.py lines 237-238. -/
def monthName : Nat → Text
  | 1 => ['J', 'a', 'n'] | 2 => ['F', 'e', 'b'] | 3 => ['M', 'a', 'r'] | 4 => ['A', 'p', 'r']
  | 5 => ['M', 'a', 'y'] | 6 => ['J', 'u', 'n'] | 7 => ['J', 'u', 'l'] | 8 => ['A', 'u', 'g']
  | 9 => ['S', 'e', 'p'] | 10 => ['O', 'c', 't'] | 11 => ['N', 'o', 'v'] | _ => ['D', 'e', 'c']

/-- `format_datetime(value, usegmt=True)` of a `datetime` in UTC, email/utils.py lines 233-240, 271-287; the
day of the week as in datetime.py lines 156-159. -/
def formatHttpDate (dt : DateTime) : Text :=
  dayName ((toOrdinal dt.date + 6) % 7) ++ ',' :: ' ' :: (pad 2 dt.date.day ++ ' ' ::
    (monthName dt.date.month ++ ' ' :: (pad 4 dt.date.year ++ ' ' ::
      (pad 2 dt.hour ++ ':' :: (pad 2 dt.minute ++ ':' :: (pad 2 dt.second ++ [' ', 'G', 'M', 'T']))))))

/-- The number of microseconds since 1970 of an aware `datetime`: `self - _EPOCH`. -/
def sinceEpoch (dt : DateTime) : Int := wall dt - dt.offset.getD 0 - 62135596800000000

/-- An epoch timestamp: Python's `int` or `float`. -/
inductive Seconds where
  | int (n : Int)
  | float (q : Rat)
deriving Repr, DecidableEq

/-- `serialize_epoch_seconds`, utils.py lines 202-213, of an aware `datetime`; `timestamp()` as in
datetime.py lines 1901-1907 and 719-722: the microseconds divided by 10⁶, correctly rounded. -/
def serializeEpoch (dt : DateTime) : Seconds :=
  let result := rnd ((sinceEpoch dt : Rat) / 1000000)
  if dt.micro == 0 then .int (truncRat result) else .float result

/-! ## Reading -/

/-- `k` ASCII digits. -/
def digits (k : Nat) (t : Text) : Option Nat :=
  if decide (t.length = k) && t.all Scalars.Strict.ascii && decide (0 < k) then some (natValue t) else none

/-- `_find_isoformat_datetime_separator`, datetime.py lines 268-322.  At least seven characters. -/
def findSeparator (t : Text) : Except Err Nat :=
  if t.length == 7 then .ok 7
  else if t[4]? == some '-' then
    if t[5]? == some 'W' then
      if t[8]? == some '-' then
        if t.length == 9 then .error .value
        else if (t[10]?.map Scalars.Strict.ascii).getD false then .ok 8
        else .ok 10
      else .ok 8
    else .ok 10
  else if t[4]? == some 'W' then
    let idx := 7 + ((t.drop 7).takeWhile Scalars.Strict.ascii).length
    if idx < 9 then .ok idx else if idx % 2 == 0 then .ok 7 else .ok 8
  else .ok 8

/-- `_isoweek1monday`, datetime.py lines 2281-2290. -/
def isoWeek1Monday (year : Nat) : Int :=
  let firstday : Int := toOrdinal ⟨year, 1, 1⟩
  let firstweekday := (firstday + 6) % 7
  let monday := firstday - firstweekday
  if 3 < firstweekday then monday + 7 else monday

/-- `_isoweek_to_gregorian`, datetime.py lines 459-489.  (Days before the year 1 give a year that the
constructor refuses; here they are refused at once.) -/
def isoWeek (year week day : Nat) : Except Err Date :=
  if !(decide (1 ≤ year) && decide (year ≤ 9999)) then .error .value
  else
    let firstWeekday := toOrdinal ⟨year, 1, 1⟩ % 7
    if !(decide (0 < week) && decide (week < 53)) &&
        !(week == 53 && (firstWeekday == 4 || (firstWeekday == 3 && isLeap year))) then .error .value
    else if !(decide (0 < day) && decide (day < 8)) then .error .value
    else
      let n : Int := isoWeek1Monday year + ((week : Int) - 1) * 7 + ((day : Int) - 1)
      if n < 1 then .error .value else .ok (ofOrdinal n.toNat)

/-- An `Option` where `none` is `ValueError`. -/
def orValue {α : Type} : Option α → Except Err α
  | some a => .ok a
  | none => .error .value

/-- `_parse_isoformat_date`, datetime.py lines 325-358. -/
def parseDate (t : Text) : Except Err Date := do
  let year ← orValue (digits 4 (t.take 4))
  let hasSep := t[4]? == some '-'
  let pos := if hasSep then 5 else 4
  if t[pos]? == some 'W' then
    let week ← orValue (digits 2 ((t.drop (pos + 1)).take 2))
    if pos + 3 < t.length then
      if (t[pos + 3]? == some '-') != hasSep then .error .value
      else
        let day ← orValue (digits 1 ((t.drop (if hasSep then pos + 4 else pos + 3)).take 1))
        isoWeek year week day
    else isoWeek year week 1
  else
    let month ← orValue (digits 2 ((t.drop pos).take 2))
    if (t[pos + 2]? == some '-') != hasSep then .error .value
    else
      let day ← orValue (digits 2 ((t.drop (if hasSep then pos + 3 else pos + 2)).take 2))
      .ok ⟨year, month, day⟩

/-- The clock of a time or an offset: hours, minutes, seconds, microseconds. -/
structure Clock where
  hour : Nat
  minute : Nat := 0
  second : Nat := 0
  micro : Nat := 0
deriving Repr, DecidableEq

/-- What follows the seconds: the end of `_parse_hh_mm_ss_ff`, datetime.py lines 388-409. -/
def parseFraction (c : Clock) : Text → Except Err Clock
  | [] => .ok c
  | s :: t =>
    if !(s == '.' || s == ',') then .error .value
    else
      match digits (min 6 t.length) (t.take 6) with
      | none => .error .value
      | some f =>
        if (t.drop 6).all Scalars.Strict.ascii then
          .ok { c with micro := f * 10 ^ (6 - min 6 t.length) }
        else .error .value

/-- `_parse_hh_mm_ss_ff`, datetime.py lines 364-409. -/
def parseClock (t : Text) : Except Err Clock :=
  match digits 2 (t.take 2) with
  | none => .error .value
  | some h =>
    match t.drop 2 with
    | [] => .ok ⟨h, 0, 0, 0⟩
    | c :: r =>
      let hasSep := c == ':'
      let t := if hasSep then r else c :: r
      match digits 2 (t.take 2) with
      | none => .error .value
      | some m =>
        match t.drop 2 with
        | [] => .ok ⟨h, m, 0, 0⟩
        | c :: r =>
          if hasSep && c != ':' then .error .value
          else
            let t := if hasSep then r else c :: r
            match digits 2 (t.take 2) with
            | none => .error .value
            | some s => parseFraction ⟨h, m, s, 0⟩ (t.drop 2)

/-- `tstr.find(c)`. -/
def find (c : Char) (t : Text) : Option Nat :=
  if c ∈ t then some (t.takeWhile (· != c)).length else none

/-- The position of the time zone: datetime.py line 419. -/
def zonePos (t : Text) : Option Nat := (find '-' t).orElse fun _ => (find '+' t).orElse fun _ => find 'Z' t

/-- `timezone(tzsign * td)`, datetime.py lines 440-453, in microseconds. -/
def zoneOffset (negative : Bool) (c : Clock) : Except Err Int :=
  let td : Int := ((c.hour * 3600 + c.minute * 60 + c.second : Nat) : Int) * 1000000 + c.micro
  let td := if negative then -td else td
  if offsetOk td then .ok td else .error .value

/-- `_parse_isoformat_time`, datetime.py lines 412-456. -/
def parseTime (t : Text) : Except Err (Clock × Option Int) :=
  if t.length < 2 then .error .value
  else
    match zonePos t with
    | none => (parseClock t).map fun c => (c, none)
    | some p => do
      let c ← parseClock (t.take p)
      if p + 1 == t.length && t.getLast? == some 'Z' then .ok (c, some 0)
      else
        let z := t.drop (p + 1)
        if z.length == 0 || z.length == 1 || z.length == 3 then .error .value
        else
          let zc ← parseClock z
          let o ← zoneOffset (t[p]? == some '-') zc
          .ok (c, some o)

/-- `datetime.fromisoformat`, datetime.py lines 1823-1853. -/
def fromIso (t : Text) : Except Err DateTime :=
  if t.length < 7 then .error .value
  else do
    let sep ← findSeparator t
    let d ← parseDate (t.take sep)
    let rest := t.drop (sep + 1)
    if rest.isEmpty then make d 0 0 0 0 none
    else
      let (c, o) ← parseTime rest
      make d c.hour c.minute c.second c.micro o

/-- `TimestampFormat.DATE_TIME.deserialize` of a string, types.py lines 181-182. -/
def readDateTime (t : Text) : Except Err DateTime := fromIso t >>= ensureUtc

/-- `TimestampFormat.DATE_TIME.serialize`, types.py lines 154-161. -/
def writeDateTime (padYear : Bool) (dt : DateTime) : Except Err Text :=
  (ensureUtc dt).map (serializeRfc3339 padYear)

end Verif.Timestamps
