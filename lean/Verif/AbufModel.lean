/-!
# Model of the growable text buffer (`src/common/autobuf.c`)

The memory block is the list `buf`, its length is the field `size`; `buf = NULL` is the empty list.  `none` is an access
outside the block or a value outside the range of `int`.  `calloc` and `realloc` do not fail.
-/

namespace Verif.Abuf

/-- `AUTOBUFSIZEMAX` (autobuf.h:58) -/
abbrev maxSize : Nat := 16777216

/-- `ROUND_UP_TO_POWER_OF_2(val, AUTOBUFCHUNK)` (autobuf.c:57-68); `AUTOBUFSIZEMAX` is a multiple of the chunk -/
def roundUp (val : Nat) : Nat :=
  if val ≤ maxSize - 4095 then (val + 4095) / 4096 * 4096 else maxSize

/-- `struct autobuf` (autobuf.h:60-64) -/
structure ABuf where
  buf : List Nat
  len : Nat
deriving DecidableEq

/-- `size` -/
def ABuf.size (b : ABuf) : Nat := b.buf.length

/-- `abuf_init` (autobuf.c:70-84), for a non-negative initial size -/
def init (initial : Nat) : ABuf :=
  if initial = 0 then ⟨[], 0⟩ else ⟨List.replicate (roundUp initial) 0, 0⟩

/-- store `data` at offset `off` of a block -/
def store (buf : List Nat) (off : Nat) (data : List Nat) : Option (List Nat) :=
  if off + data.length ≤ buf.length then some (buf.take off ++ data ++ buf.drop (off + data.length)) else none

/-- `autobuf_enlarge` (autobuf.c:93-119): the buffer and whether the call succeeded -/
def enlarge (b : ABuf) (newSize : Nat) : Option (ABuf × Bool) :=
  if newSize + 1 ≥ 2147483648 then none
  else if b.size ≥ maxSize then some (b, false)
  else if newSize + 1 > b.size then
    some ({ b with buf := b.buf ++ List.replicate (roundUp (newSize + 1) - b.size) 0 }, true)
  else some (b, true)

/-- `abuf_puts` (autobuf.c:151-166); `s` is the string without its terminator -/
def puts (b : ABuf) (s : List Nat) : Option (ABuf × Bool) :=
  if s = [] then some (b, true)
  else
    (enlarge b (b.len + s.length + 1)).bind fun r =>
    if r.2 then (store r.1.buf r.1.len (s ++ [0])).map fun m => (⟨m, r.1.len + s.length⟩, true)
    else some (b, false)

/-- `vsnprintf(buf + off, n, ...)` printing `s` -/
def vsnprintf (buf : List Nat) (off n : Nat) (s : List Nat) : Option (List Nat) :=
  if n = 0 then some buf else store buf off (s.take (n - 1) ++ [0])

/-- `abuf_vappendf` (autobuf.c:121-139); `s` is what the format produces; `size - len` must not be negative -/
def appendf (b : ABuf) (s : List Nat) : Option (ABuf × Bool) :=
  if b.len > b.size then none
  else
    (vsnprintf b.buf b.len (b.size - b.len) s).bind fun m =>
    if b.len + s.length ≥ b.size then
      (enlarge ⟨m, b.len⟩ (b.len + s.length)).bind fun r =>
      if r.2 then
        (vsnprintf r.1.buf b.len (r.1.size - b.len) s).map fun m => (⟨m, b.len + s.length⟩, true)
      else (store r.1.buf b.len [0]).map fun m => (⟨m, b.len⟩, false)
    else some (⟨m, b.len + s.length⟩, true)

/-- `abuf_concat` (autobuf.c:168-182) with another buffer of content `c`, followed there by the byte `t`;
`strncpy` copies up to the first NUL byte and fills up with NUL bytes -/
def concat (b : ABuf) (c : List Nat) (t : Nat) : Option (ABuf × Bool) :=
  if c = [] then some (b, true)
  else
    (enlarge b (b.len + c.length + 1)).bind fun r =>
    if r.2 then
      let text := (c ++ [t]).takeWhile (· ≠ 0)
      (store r.1.buf r.1.len (text ++ List.replicate (c.length + 1 - text.length) 0)).map fun m =>
        (⟨m, r.1.len + c.length⟩, true)
    else some (b, false)

/-- `abuf_memcpy` (autobuf.c:198-205) -/
def memcpy (b : ABuf) (p : List Nat) : Option (ABuf × Bool) :=
  (enlarge b (b.len + p.length)).bind fun r =>
  if r.2 then (store r.1.buf r.1.len p).map fun m => (⟨m, r.1.len + p.length⟩, true)
  else some (b, false)

/-- `abuf_memcpy_prefix` (autobuf.c:207-215) -/
def memcpyPrefix (b : ABuf) (p : List Nat) : Option (ABuf × Bool) :=
  (enlarge b (b.len + p.length)).bind fun r =>
  if r.2 then
    (store r.1.buf p.length (r.1.buf.take r.1.len)).bind fun m =>
    (store m 0 p).map fun m => (⟨m, r.1.len + p.length⟩, true)
  else some (b, false)

/-- `abuf_pull` (autobuf.c:217-239); `j` is the content of memory that `realloc` adds -/
def pull (b : ABuf) (n : Nat) (j : Nat) : Option (ABuf × Bool) :=
  if n > b.len then none
  else
    (if n ≠ b.len then store b.buf 0 ((b.buf.drop n).take (b.len - n)) else some b.buf).map fun m =>
    let newsize := roundUp (b.len - n + 1)
    (⟨m.take newsize ++ List.replicate (newsize - m.length) j, b.len - n⟩, true)

/-- the operations -/
inductive Op where
  | puts (s : List Nat)
  | appendf (s : List Nat)
  | concat (c : List Nat) (t : Nat)
  | memcpy (p : List Nat)
  | memcpyPrefix (p : List Nat)
  | pull (n j : Nat)

def step (b : ABuf) : Op → Option (ABuf × Bool)
  | .puts s => puts b s
  | .appendf s => appendf b s
  | .concat c t => concat b c t
  | .memcpy p => memcpy b p
  | .memcpyPrefix p => memcpyPrefix b p
  | .pull n j => pull b n j

/-- a sequence of operations that all succeed; `none` if one fails or is undefined -/
def run : ABuf → List Op → Option ABuf
  | b, [] => some b
  | b, o :: ops => (step b o).bind fun r => if r.2 then run r.1 ops else none

end Verif.Abuf
