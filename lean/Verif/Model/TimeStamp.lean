/-!
Model of `rfs::TimeStamp` (include/TimeStamp.hpp, src/TimeStamp.cpp).

The two `int32_t` members are unbounded integers here; every arithmetic step that the C++ performs in `int32_t`
is guarded by `chk32`, whose `none` outcome is signed overflow (undefined behaviour).  `1000000000L` is a 64-bit
`long`, so `%`, `/` and the addition in `normalize` happen in 64 bits (no overflow possible) and only the conversion
back to `int32_t` narrows (`wrap32`, two's complement).
-/

namespace RFS
namespace TimeStamp

/-- `class TimeStamp` data members, include/TimeStamp.hpp 109-110. -/
structure TS where
  sec : Int
  nsec : Int
deriving DecidableEq, Repr

/-- Range of `int32_t`. -/
def InI32 (x : Int) : Prop := -2147483648 ≤ x ∧ x ≤ 2147483647

instance (x : Int) : Decidable (InI32 x) := by unfold InI32; infer_instance

/-- An `int32_t` arithmetic result: `none` is signed overflow (UB). -/
def chk32 (x : Int) : Option Int := if InI32 x then some x else none

/-- Conversion `long` to `int32_t` (two's complement, as gcc and clang do). -/
def wrap32 (x : Int) : Int := (x + 2147483648) % 4294967296 - 2147483648

/-- Default constructor, src/TimeStamp.cpp 37-40. -/
def zero : TS := ⟨0, 0⟩

/-- `TimeStamp::normalize`, include/TimeStamp.hpp 203-213. -/
def normalize (t : TS) : Option TS :=
  let nsecTemp := Int.tmod t.nsec 1000000000
  let secTemp := wrap32 (t.sec + Int.tdiv t.nsec 1000000000)
  if nsecTemp < 0 then
    (chk32 (secTemp - 1)).map fun s => ⟨s, nsecTemp + 1000000000⟩
  else
    some ⟨secTemp, nsecTemp⟩

/-- `TimeStamp(int32_t s, int32_t ns)`, src/TimeStamp.cpp 42-44. -/
def mk (s ns : Int) : Option TS := normalize ⟨s, ns⟩

/-- `setTime(int32_t s, int32_t ns)` on any existing stamp, src/TimeStamp.cpp 67-71. -/
def setTime (_old : TS) (s ns : Int) : Option TS := normalize ⟨s, ns⟩

/-- `operator+`, include/TimeStamp.hpp 142-147 (the constructor normalises, then `normalize` is called again). -/
def add (a b : TS) : Option TS := do
  let s ← chk32 (a.sec + b.sec)
  let n ← chk32 (a.nsec + b.nsec)
  let l ← mk s n
  normalize l

/-- `operator+=`, include/TimeStamp.hpp 135-140. -/
def addAssign (a b : TS) : Option TS := do
  let s ← chk32 (a.sec + b.sec)
  let n ← chk32 (a.nsec + b.nsec)
  normalize ⟨s, n⟩

/-- `operator-`, include/TimeStamp.hpp 156-161. -/
def sub (a b : TS) : Option TS := do
  let s ← chk32 (a.sec - b.sec)
  let n ← chk32 (a.nsec - b.nsec)
  let l ← mk s n
  normalize l

/-- `operator-=`, include/TimeStamp.hpp 149-154. -/
def subAssign (a b : TS) : Option TS := do
  let s ← chk32 (a.sec - b.sec)
  let n ← chk32 (a.nsec - b.nsec)
  normalize ⟨s, n⟩

/-- `operator<`, include/TimeStamp.hpp 173-181. -/
def lt (a b : TS) : Bool :=
  if a.sec < b.sec then true else if a.sec = b.sec ∧ a.nsec < b.nsec then true else false

/-- `operator<=`, include/TimeStamp.hpp 163-171. -/
def le (a b : TS) : Bool :=
  if a.sec < b.sec then true else if a.sec = b.sec ∧ a.nsec ≤ b.nsec then true else false

/-- `operator>`, include/TimeStamp.hpp 193-201. -/
def gt (a b : TS) : Bool :=
  if a.sec > b.sec then true else if a.sec = b.sec ∧ a.nsec > b.nsec then true else false

/-- `operator>=`, include/TimeStamp.hpp 183-191. -/
def ge (a b : TS) : Bool :=
  if a.sec > b.sec then true else if a.sec = b.sec ∧ a.nsec ≥ b.nsec then true else false

/-- `operator==`, include/TimeStamp.hpp 121-126. -/
def eq (a b : TS) : Bool := if a.sec = b.sec ∧ a.nsec = b.nsec then true else false

/-- `operator!=`, include/TimeStamp.hpp 128-133. -/
def ne (a b : TS) : Bool := if a.sec ≠ b.sec ∨ a.nsec ≠ b.nsec then true else false

/-- Truncation toward zero of a rational, the conversion `(int32_t)double` for values in range. -/
def truncQ (q : Rat) : Int := Int.tdiv q.num q.den

/-- `setTime(double)` / `TimeStamp(double)`, src/TimeStamp.cpp 57-65 and 46-48.  The double is an exact rational
(no rounding); `modf` splits toward zero; converting an out-of-range double to `int32_t` is undefined (`none`). -/
def setTimeD (t : Rat) : Option TS := do
  let intPart := truncQ t
  let fracPart := t - intPart
  let s ← chk32 intPart
  let n ← chk32 (truncQ (fracPart * 1000000000))
  normalize ⟨s, n⟩

/-- `getTimeAsDouble`, src/TimeStamp.cpp 52-55, in exact arithmetic. -/
def getTimeAsDouble (t : TS) : Rat := t.sec + t.nsec / 1000000000

end TimeStamp
end RFS
