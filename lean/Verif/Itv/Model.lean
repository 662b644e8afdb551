set_option autoImplicit false
/-
Intervals of time, `lib/llib/time.l` class `interval-time`.  Integers are unbounded.
-/
namespace Eus.Itv

/-- time.l:122-127 -/
structure Interval where
  total : Int
  micros : Int
  days : Int
  hours : Int
  minutes : Int
  seconds : Int

/-- time.l:134-148 `:make`; `/` and `mod` of integers truncate toward 0, arith.c:360-373 -/
def make (year month day hour minute second micro : Int) : Interval :=
  let total := second + 60 * (minute + 60 * (hour + 24 * (day + 30 * (month + 12 * year))))
  let minutes := total.tdiv 60
  let seconds := total - minutes * 60
  let hours := minutes.tdiv 60
  let minutes := minutes - hours * 60
  let days := hours.tdiv 60
  let hours := hours.tmod 60
  ⟨total, micro, days, hours, minutes, seconds⟩

/-- time.l:133 `:init` with the arguments it is sent; `none`: the error of a wrong number of arguments -/
def init : List Int → Option Interval
  | [secs] => some (make 0 0 0 0 0 secs 0)
  | _ => none

/-- time.l:177-181 `:add` -/
def add (a b : Interval) : Option Interval :=
  let raw := a.micros + b.micros
  init [a.total + b.total + raw.tdiv 1000000, raw.tmod 1000000]

/-- time.l:182-189 `:subtract` -/
def subtract (a b : Interval) : Option Interval :=
  let raw := a.micros - b.micros
  let t := a.total - b.total
  if raw < 0 then init [t - (1 + raw.tdiv (-1000000)), 1000000 + raw.tmod 1000000] else init [t, raw]

end Eus.Itv
