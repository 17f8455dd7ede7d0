import Verif.Model.Alloc

/-!
# `print` with any `print_num` and `print_endl`, and on a stream in any state

`matrix_print.hpp`. The header invites its user to write `print_num` and `print_endl` anew (`matrix_print.hpp:53-62`). The
stream is `std::cout`; the user may have set its flags, its device may fail, and failures may throw.
-/

namespace MatrixLibs

variable {T : Type} [Inhabited T] {i j : Nat} {σ : Type}

/-- `print(A)`, `matrix_print.hpp:69-81`, with the functions `print_num` and `print_endl`. -/
def printRun (print_num : T → Run σ Unit) (print_endl : Run σ Unit) (A : Mat T i j) : Run σ Unit :=
  forRun 0 i fun it => do
    forRun 0 j fun jt => do
      let tmp ← liftRes (rd A it jt)
      print_num tmp
    print_endl

/-! ## Without `PRINT_IOSTREAM_ENABLE` -/

/-- `print_num`, `matrix_print.hpp:53-57`: empty. -/
def printNumEmpty (_ : T) : Run σ Unit := pure ()

/-- `print_endl`, `matrix_print.hpp:59-62`: empty. -/
def printEndlEmpty : Run σ Unit := pure ()

/-! ## `std::cout` -/

/-- An output stream. Flags that only concern the form of numbers are left to the function `fmt`; `internal` adjustment
is not modelled. -/
structure Ostream where
  /-- what has been written -/
  out : List Char
  /-- `width()` -/
  width : Nat
  /-- `fill()` -/
  fill : Char
  /-- `flags() & left` -/
  left : Bool
  /-- `!good()` -/
  bad : Bool
  /-- `exceptions() & badbit` -/
  mask : Bool

/-- What is behind the stream: whether it takes a further character, and whether flushing succeeds, after what has been
written. -/
structure Device where
  takes : List Char → Char → Bool
  flushes : List Char → Bool

/-- `std::ios_base::failure`. -/
def iosFailure : Exc := .other 1

/-- `setstate(badbit)`. -/
def setBad : Run Ostream Unit := fun s =>
  if s.mask then (.error (.throws iosFailure), { s with bad := true }) else (.ok (), { s with bad := true })

/-- Characters go to the device until it refuses one. -/
def put (dev : Device) : List Char → Run Ostream Unit
  | [] => pure ()
  | c :: l => fun s =>
    if dev.takes s.out c then put dev l { s with out := s.out ++ [c] } else setBad s

/-- Padding to `width()`. -/
def Ostream.pad (s : Ostream) (l : List Char) : List Char :=
  if s.left then l ++ List.replicate (s.width - l.length) s.fill
  else List.replicate (s.width - l.length) s.fill ++ l

/-- A formatted output function that writes `l`: it does nothing unless the stream is good, and resets `width()`
([ostream.formatted.reqmts], [facet.num.put.virtuals]). -/
def insertText (dev : Device) (l : List Char) : Run Ostream Unit := fun s =>
  if s.bad then (.ok (), s) else put dev (s.pad l) { s with width := 0 }

/-- `print_num`, `matrix_print.hpp:36-40`: `std::cout << num << " "`; `fmt` is the text of a number. -/
def printNumStream (dev : Device) (fmt : T → List Char) (num : T) : Run Ostream Unit := do
  insertText dev (fmt num)
  insertText dev [' ']

/-- `flush()`. -/
def flush (dev : Device) : Run Ostream Unit := fun s =>
  if s.bad then (.ok (), s) else if dev.flushes s.out then (.ok (), s) else setBad s

/-- `put('\n')`, unformatted: no padding. -/
def putNewline (dev : Device) : Run Ostream Unit := fun s => if s.bad then (.ok (), s) else put dev ['\n'] s

/-- `print_endl`, `matrix_print.hpp:42-45`: `std::cout << std::endl`. -/
def printEndlStream (dev : Device) : Run Ostream Unit := do
  putNewline dev
  flush dev

end MatrixLibs
