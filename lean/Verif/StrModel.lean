/-!
# Model of the bounded string helpers (`src/common/string_handling.c`)

`mem` is the object `dest` points to (all bytes from `dest` on), `src` the object the source points to; the two do not
overlap.  `none` is an access outside one of the objects.  The assertions are compiled out (`NDEBUG`), otherwise a
size of 0 aborts.
-/

namespace Verif.Str

/-- `strlen` of an object: the index of the first NUL byte; `none` if there is none and the read leaves the object -/
def strlen : List Nat → Option Nat
  | [] => none
  | c :: cs => if c = 0 then some 0 else (strlen cs).map (· + 1)

/-- the loop at string_handling.c:76-79: `n` more bytes may be taken -/
def scan : Nat → List Nat → Option Nat
  | 0, _ => some 0
  | _ + 1, [] => none
  | n + 1, c :: cs => if c = 0 then some 0 else (scan n cs).map (· + 1)

/-- store `data` at offset `off` -/
def store (mem : List Nat) (off : Nat) (data : List Nat) : Option (List Nat) :=
  if off + data.length ≤ mem.length then some (mem.take off ++ data ++ mem.drop (off + data.length)) else none

/-- `strncpy(dest, src, n)` at offset `off`: copies up to the first NUL byte of `src` and fills up with NUL bytes -/
def strncpy (mem : List Nat) (off : Nat) (src : List Nat) (n : Nat) : Option (List Nat) :=
  (scan n src).bind fun k => store mem off (src.take k ++ List.replicate (n - k) 0)

/-- `_internal_strscpy(dest + off, src, size)` (string_handling.c:63-86); `size` is not 0 -/
def internal (mem : List Nat) (off : Nat) (src : List Nat) (size : Nat) : Option (List Nat) :=
  (scan (size - 1) src).bind fun length =>
  (store mem (off + length) [0]).bind fun mem =>
  strncpy mem off src length

/-- `strscpy` (string_handling.c:101-112) -/
def strscpy (mem src : List Nat) (size : Nat) : Option (List Nat) :=
  if size = 0 then some mem else internal mem 0 src size

/-- `strscat` (string_handling.c:129-146); `dest_size - dst_content_len` is a 64-bit `size_t` -/
def strscat (mem src : List Nat) (size : Nat) : Option (List Nat) :=
  if size = 0 then some mem
  else
    (strlen mem).bind fun n =>
    let room := (size + 18446744073709551616 - n) % 18446744073709551616
    if room = 0 then some mem else internal mem n src room

end Verif.Str
