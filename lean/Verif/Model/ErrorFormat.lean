import Verif.Model.Json.Bytes
/-
  Error messages.

  Code modelled: src/error.cpp, src/error.h.

  * `vsnprintf` is given by the message it formats: a string `msg` of which it stores what fits and whose
    length it returns.  (A negative result, for an encoding error, is not modelled; nor is an argument whose
    type does not fit its conversion.)
  * The array `buf` is a list of bytes, `none` where nothing was stored.
-/
namespace Reflect
open Json (Byte Bytes)

/-- `char buf[1024]`, error.cpp:24 -/
def newBuf : List (Option Byte) := List.replicate 1024 none

/-- storing into an array from an index on -/
def store (buf : List (Option Byte)) (i : Nat) : Bytes → List (Option Byte)
  | [] => buf
  | c :: s => store (buf.set i (some c)) (i + 1) s

/-- `vsnprintf(buf, size, fmt, args)`, `size > 0`: at most `size - 1` bytes and a final zero -/
def vsnprintf (buf : List (Option Byte)) (size : Nat) (msg : Bytes) : List (Option Byte) × Nat :=
  (store buf 0 (msg.take (size - 1) ++ [0]), msg.length)

/-- `std::string(buf, n)`: reads `n` bytes of the array -/
def makeString (buf : List (Option Byte)) (n : Nat) : Res (List (Option Byte)) :=
  if n ≤ buf.length then .ok (buf.take n) else .error .ub

/-- `verrorFormat`, error.cpp:19-28; a byte of the result may be indeterminate -/
def verrorFormat (msg : Bytes) : Res (List (Option Byte)) :=
  let p := vsnprintf newBuf (1024 - 1) msg
  makeString p.1 p.2

/-- how `verror` ends, error.cpp:35-43 -/
inductive Ending where
  /-- `throw Error(msg)` -/
  | thrown (what : List (Option Byte))
  /-- printed and aborted: `printf("%s\n")` of the message up to the first zero byte -/
  | aborted (printed : List (Option Byte))

/-- `verror`, error.cpp:35-43 -/
def verror (except : Bool) (file : Bytes) (line : Nat) (msg : List (Option Byte)) : Ending :=
  let msg := file.map some ++ [some 58] ++ (Json.decDigits line).map some ++ [some 58, some 32] ++ msg
  if except then .thrown msg else .aborted (msg.takeWhile (· ≠ some 0) ++ [some 10])

/-- `error`, error.h:93-98 -/
def error (except : Bool) (file : Bytes) (line : Nat) (msg : Bytes) : Res Ending :=
  match verrorFormat msg with
  | .error e => .error e
  | .ok s => .ok (verror except file line s)

end Reflect
