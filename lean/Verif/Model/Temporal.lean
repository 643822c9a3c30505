import Verif.Num
/-
Model of dates, times and datetimes: /repo/ngoschema/types/datetime.py, with the formats of config/settings.py 121-161.

Simplifications. arrow's search of a format in a text is read into the model (`search`): a match starts at the start of
the text or after a white space and ends at the end of the text or before a white space; the punctuation arrow tolerates
around a match, hour 24, rounding of a seventh digit, and the case of letters are left out. Zones are offsets in
minutes. `strftime` is arbitrary, as are the evaluation of expressions and templates in texts, and the present moment.
-/
namespace Verif.Temporal

/-- `datetime.date`. -/
structure Date where
  y : Nat
  m : Nat
  d : Nat
  deriving DecidableEq

/-- `datetime.time`: hour, minute, second, microsecond, and the offset of the zone if there is one. -/
structure Clock where
  h : Nat
  mi : Nat
  s : Nat
  us : Nat
  tz : Option Int
  deriving DecidableEq

/-- Number of days of a month. -/
def daysIn (y m : Nat) : Nat :=
  if m = 2 then if (y % 4 = 0 ∧ y % 100 ≠ 0) ∨ y % 400 = 0 then 29 else 28
  else if m = 4 ∨ m = 6 ∨ m = 9 ∨ m = 11 then 30 else 31

/-- What `datetime.date` accepts. -/
def Date.valid (d : Date) : Bool := 1 ≤ d.y && d.y ≤ 9999 && 1 ≤ d.m && d.m ≤ 12 && 1 ≤ d.d && d.d ≤ daysIn d.y d.m

/-- What `datetime.time` accepts. -/
def Clock.valid (c : Clock) : Bool := c.h < 24 && c.mi < 60 && c.s < 60 && c.us < 1000000

/-- `datetime.time(0, 0)`. -/
def midnight : Clock := ⟨0, 0, 0, 0, none⟩

/-- `datetime.date(1, 1, 1)`. -/
def dayOne : Date := ⟨1, 1, 1⟩

/-- A value: None, a date, a time, a datetime, an arrow (an arrow always has a zone), a text, anything else. -/
inductive TVal where
  | none
  | date (d : Date)
  | time (c : Clock)
  | datetime (d : Date) (c : Clock)
  | arrow (d : Date) (c : Clock)
  | str (s : Str)
  | other
  deriving DecidableEq

/-! ### Numbers -/

/-- The digit. -/
def digit (n : Nat) : Char := Char.ofNat (48 + n % 10)

/-- A number with `w` digits. -/
def fix : Nat → Nat → Str
  | 0, _ => []
  | w + 1, n => fix w (n / 10) ++ [digit n]

/-- Reads `w` digits. -/
def num : Nat → Str → Nat → Option (Nat × Str)
  | 0, s, acc => some (acc, s)
  | _ + 1, [], _ => none
  | w + 1, c :: s, acc => if c.isDigit then num w s (10 * acc + (c.toNat - 48)) else none

/-! ### Formats -/

/-- A token of a format: `YYYY MM DD HH mm ss`, `SSS` or `SSSSSS`, `ZZ`, `A`, a character. -/
inductive FTok where
  | year
  | month
  | day
  | hour
  | minute
  | second
  | sub (w : Nat)
  | zone
  | half
  | lit (c : Char)
  deriving DecidableEq

abbrev Fmt := List FTok

/-- What a format reads. -/
structure Fields where
  date : Date := dayOne
  clock : Clock := midnight
  pm : Option Bool := none
  deriving DecidableEq

/-- `ZZ`: a sign that may lack, two digits, and two more after a colon that may lack; or `Z`. -/
def readZone (s : Str) : Option (Int × Str) :=
  match s with
  | 'Z' :: r => some (0, r)
  | _ =>
    let (sign, r) : Int × Str := match s with
      | '+' :: r => (1, r)
      | '-' :: r => (-1, r)
      | r => (1, r)
    match num 2 r 0 with
    | none => none
    | some (h, ':' :: r') => match num 2 r' 0 with
      | some (m, r'') => some (sign * (60 * h + m : Nat), r'')
      | none => some (sign * (60 * h : Nat), ':' :: r')
    | some (h, r') => some (sign * (60 * h : Nat), r')

/-- `S…`: digits, read as the first six after a decimal point. -/
def readSub (s : Str) : Option (Nat × Str) :=
  let ds := s.takeWhile Char.isDigit
  if ds = [] then none
  else match num 6 (ds ++ ['0', '0', '0', '0', '0', '0']) 0 with
    | none => none
    | some (n, _) => some (n, s.dropWhile Char.isDigit)

/-- `A`. -/
def readHalf : Str → Option (Bool × Str)
  | 'A' :: 'M' :: r => some (false, r)
  | 'P' :: 'M' :: r => some (true, r)
  | 'a' :: 'm' :: r => some (false, r)
  | 'p' :: 'm' :: r => some (true, r)
  | _ => none

/-- Matches one token. -/
def tokAt (t : FTok) (x : Fields) (s : Str) : Option (Fields × Str) :=
  match t with
  | .year => (num 4 s 0).map fun (n, r) => ({ x with date := { x.date with y := n } }, r)
  | .month => (num 2 s 0).map fun (n, r) => ({ x with date := { x.date with m := n } }, r)
  | .day => (num 2 s 0).map fun (n, r) => ({ x with date := { x.date with d := n } }, r)
  | .hour => (num 2 s 0).map fun (n, r) => ({ x with clock := { x.clock with h := n } }, r)
  | .minute => (num 2 s 0).map fun (n, r) => ({ x with clock := { x.clock with mi := n } }, r)
  | .second => (num 2 s 0).map fun (n, r) => ({ x with clock := { x.clock with s := n } }, r)
  | .sub _ => (readSub s).map fun (n, r) => ({ x with clock := { x.clock with us := n } }, r)
  | .zone => (readZone s).map fun (n, r) => ({ x with clock := { x.clock with tz := some n } }, r)
  | .half => (readHalf s).map fun (b, r) => ({ x with pm := some b }, r)
  | .lit c => match s with
    | [] => none
    | d :: r => if d = c then some (x, r) else none

/-- Matches a format at the start of the text. -/
def fmtAt : Fmt → Fields → Str → Option (Fields × Str)
  | [], x, s => some (x, s)
  | t :: f, x, s => match tokAt t x s with
    | none => none
    | some (x', r) => fmtAt f x' r

/-- The end of the text or a white space. -/
def bounded : Str → Bool
  | [] => true
  | c :: _ => isSpace c

/-- A match here. -/
def here (f : Fmt) (s : Str) : Option Fields :=
  match fmtAt f {} s with
  | some (x, r) => if bounded r then some x else none
  | none => none

/-- arrow's search of a format; `start` tells if a match may start here. -/
def search (f : Fmt) : Bool → Str → Option Fields
  | start, [] => if start then here f [] else none
  | start, c :: s => match (if start then here f (c :: s) else none) with
    | some x => some x
    | none => search f (isSpace c) s

/-- The hour of a match, in view of `A`. -/
def hour24 (x : Fields) : Nat :=
  match x.pm with
  | some true => if x.clock.h < 12 then x.clock.h + 12 else x.clock.h
  | some false => if x.clock.h = 12 then 0 else x.clock.h
  | none => x.clock.h

/-- `arrow.get(text, formats)`: the first format that matches makes the moment. -/
def get : List Fmt → Str → Res (Date × Clock)
  | [], _ => .error .valueError
  | f :: fs, s => match search f true s with
    | none => get fs s
    | some x =>
      let c := { x.clock with h := hour24 x }
      if x.date.valid && c.valid then .ok (x.date, c) else .error .valueError

/-- settings.py 125-127 `DATE_FORMATS`. -/
def dateFormats : List Fmt :=
  [[.year, .lit '-', .month, .lit '-', .day], [.year, .lit '/', .month, .lit '/', .day],
   [.year, .lit '.', .month, .lit '.', .day], [.year, .lit '-', .month], [.year, .lit '/', .month],
   [.year, .lit '.', .month]]

/-- settings.py 129-136 `ALT_DATE_FORMATS`. -/
def altDateFormats : List Fmt :=
  [[.day, .lit '-', .month, .lit '-', .year], [.day, .lit '/', .month, .lit '/', .year],
   [.day, .lit '.', .month, .lit '.', .year], [.month, .lit '-', .year], [.month, .lit '/', .year],
   [.month, .lit '.', .year]]

/-- `HH:mm:ss`. -/
def hms : Fmt := [.hour, .lit ':', .minute, .lit ':', .second]

/-- settings.py 138-149 `ALT_TIME_FORMATS`. -/
def timeFormats : List Fmt :=
  [hms ++ [.lit '.', .sub 6, .lit ' ', .zone], hms ++ [.lit '.', .sub 6], hms ++ [.lit '.', .sub 3, .lit ' ', .zone],
   hms ++ [.lit '.', .sub 3], hms ++ [.zone], hms ++ [.lit ' ', .zone], hms, [.hour, .lit ':', .minute],
   hms ++ [.lit ' ', .half], [.hour, .lit ':', .minute, .lit ' ', .half]]

/-! ### Conversion -/

/-- What a conversion depends on: the evaluation of texts, the present moment (UTC). -/
structure Env where
  conv : Str → Str
  nowDate : Date
  nowClock : Clock

/-- datetime.py 40-63 `Date._convert`: making the message of the exception raises IndexError. -/
def dateConvert (env : Env) : TVal → Res TVal
  | .none => .ok .none
  | .arrow d c => if { c with tz := none } = midnight then .ok (.date d) else .error .assertionError
  | .datetime d c => if { c with tz := none } = midnight then .ok (.date d) else .error .assertionError
  | .date d => .ok (.date d)
  | .str s =>
    if env.conv s = "today".toList ∨ env.conv s = "now".toList then .ok (.date env.nowDate)
    else match get dateFormats (env.conv s) with
      | .ok (d, c) => if { c with tz := none } = midnight then .ok (.date d)
        else dateAlt (env.conv s)
      | .error _ => dateAlt (env.conv s)
  | _ => .error .indexError
where
  /-- datetime.py 57-63. -/
  dateAlt (s : Str) : Res TVal := match get altDateFormats s with
    | .ok (d, c) => if { c with tz := none } = midnight then .ok (.date d) else .error .indexError
    | .error _ => .error .indexError

/-- datetime.py 84-103 `Time._convert`. -/
def timeConvert (env : Env) : TVal → Res TVal
  | .none => .ok .none
  | .time c => .ok (.time c)
  | .arrow d c => if d = dayOne then .ok (.time { c with tz := none }) else .error .assertionError
  | .datetime d c => if d = dayOne then .ok (.time { c with tz := none }) else .error .assertionError
  | .str s =>
    if env.conv s = "now".toList ∨ env.conv s = "today".toList then .ok (.time env.nowClock)
    else match get timeFormats (env.conv s) with
      | .ok (d, c) => if d = dayOne then .ok (.time { c with tz := none }) else .error .indexError
      | .error _ => .error .indexError
  | _ => .error .indexError

/-- `arrow.get(datetime)`: a datetime without zone is UTC. -/
def toArrow (d : Date) (c : Clock) : TVal := .arrow d { c with tz := some (c.tz.getD 0) }

/-- datetime.py 124-143 `Datetime._convert`: what is no text and no datetime gives None. -/
def datetimeConvert (env : Env) : TVal → Res TVal
  | .none => .ok .none
  | .arrow d c => .ok (.arrow d c)
  | .datetime d c => .ok (toArrow d c)
  | .str s =>
    if env.conv s = "now".toList then .ok (toArrow env.nowDate env.nowClock)
    else if env.conv s = "today".toList then .ok (toArrow env.nowDate midnight)
    else match get (dateFormats ++ altDateFormats) (env.conv s) with
      | .error _ => .error .invalidValue
      | .ok (d, _) => match get timeFormats (env.conv s) with
        | .error _ => .error .invalidValue
        | .ok (_, c) => .ok (toArrow d { c with tz := none })
  | _ => .ok .none

/-! ### Serialisation -/

/-- `+HH:MM`. -/
def showZone (z : Int) : Str :=
  (if z < 0 then '-' else '+') :: fix 2 (z.natAbs / 60) ++ ':' :: fix 2 (z.natAbs % 60)

/-- `date.isoformat()`. -/
def isoDate (d : Date) : Str := fix 4 d.y ++ '-' :: fix 2 d.m ++ '-' :: fix 2 d.d

/-- `HH:MM:SS`. -/
def showHms (c : Clock) : Str := fix 2 c.h ++ ':' :: fix 2 c.mi ++ ':' :: fix 2 c.s

/-- `time.isoformat()`. -/
def isoClock (c : Clock) : Str :=
  showHms c ++ (if c.us = 0 then [] else '.' :: fix 6 c.us) ++ (match c.tz with | none => [] | some z => showZone z)

/-- `Arrow.format`, token by token; an arrow has a zone. -/
def showTok (d : Date) (c : Clock) : FTok → Str
  | .year => fix 4 d.y
  | .month => fix 2 d.m
  | .day => fix 2 d.d
  | .hour => fix 2 c.h
  | .minute => fix 2 c.mi
  | .second => fix 2 c.s
  | .sub w => (fix 6 c.us).take w
  | .zone => showZone (c.tz.getD 0)
  | .half => if c.h < 12 then "AM".toList else "PM".toList
  | .lit x => [x]

/-- A format of serialisation: one of arrow, or one of `strftime`. -/
inductive SFmt where
  | arrow (f : Fmt)
  | strf (f : Str)

/-- datetime.py 15-23 `_dt_serialize` of a converted value. -/
def serialize (strftime : Str → TVal → Str) : Option SFmt → TVal → Res TVal
  | none, .none => .ok .none
  | none, .date d => .ok (.str (isoDate d))
  | none, .time c => .ok (.str (isoClock c))
  | none, .arrow d c => .ok (.str (isoDate d ++ 'T' :: isoClock c))
  | none, .datetime d c => .ok (.str (isoDate d ++ 'T' :: isoClock c))
  | some (.arrow f), .arrow d c => .ok (.str (f.flatMap (showTok d c)))
  | some (.strf f), .arrow d c => .ok (.str (strftime f (.arrow d c)))
  | some (.strf f), .datetime d c => .ok (.str (strftime f (.datetime d c)))
  | some (.strf f), .date d => .ok (.str (strftime f (.date d)))
  | some (.strf f), .time c => .ok (.str (strftime f (.time c)))
  | _, _ => .error .attributeError

end Verif.Temporal
