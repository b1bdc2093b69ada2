/-
Model of how an info plugin cleans up a request (`lib/info/olsrd_info.c`
101-120, 611-744, 848-889).

The memory from `req` to the end of `req_buffer` is a list of characters; the
pointer moves forward by dropping characters.  `len` is the `size_t` behind
`rx_count`.  Accesses outside of `req_buffer` are the outcome `ub`.  The loops
that strip the end of a request do not stop at its start: with `*len` zero
`requ[*len - 1]` reads the character in front of the request.  (Strictly, the
index is then the largest `size_t` and the C standard does not define this at
all; the model takes the usual machine.)  That is `ub` when the request starts
with the buffer, and also when the character is to be stripped too, because
then the length wraps around.
-/
namespace Verif.InfoReq

/-- Text. -/
abbrev Str := List Char

/-- The terminating character. -/
def nul : Char := Char.ofNat 0

/-- The request: the character in front of `req` (none when `req` is at the
start of `req_buffer`), the memory from `req` on, the length and whether headers
are wanted. -/
structure Rq where
  pre : Option Char
  mem : Str
  len : Nat
  hdr : Bool

/-- A step works or is undefined. -/
inductive Out where
  | ok (r : Rq)
  | ub

/-- The next step, if this one worked. -/
def Out.next (o : Out) (f : Rq → Out) : Out :=
  match o with
  | .ok r => f r
  | .ub => .ub

/-- `isspace` in the C locale. -/
def isSpace (c : Char) : Bool := c = ' ' || (9 ≤ c.toNat && c.toNat ≤ 13)

/-- `tolower` in the C locale. -/
def lower (c : Char) : Char :=
  if 65 ≤ c.toNat ∧ c.toNat ≤ 90 then Char.ofNat (c.toNat + 32) else c

/-- `*len - 1` for a `size_t`. -/
def decr (n : Nat) : Nat := (n + (2 ^ 64 - 1)) % 2 ^ 64

/-- The scan of `cutAtFirstEOL` (olsrd_info.c 655-658): the number of
characters before the first line end or the terminator. -/
def eolScan : Str → Option Nat
  | [] => none
  | c :: r => if c = '\n' ∨ c = '\r' ∨ c = nul then some 0 else (eolScan r).map (· + 1)

/-- `cutAtFirstEOL` (olsrd_info.c 647-664).  When the scan ends at the
terminator, writing the terminator again changes nothing. -/
def cutAtFirstEOL (r : Rq) : Out :=
  if r.len = 0 then .ok r
  else
    match eolScan r.mem with
    | none => .ub
    | some l => .ok { r with mem := r.mem.set l nul, len := l }

/-- The loop of `stripTrailingWhitespace` and `stripTrailingSlashes`
(olsrd_info.c 628-631, 640-643). -/
def stripLoop (p : Char → Bool) (pre : Option Char) : Nat → Str → Bool → Out
  | 0, mem, hdr =>
    match pre with
    | none => .ub
    | some c => if p c ∧ c ≠ nul then .ub else .ok { pre := some c, mem := mem, len := 0, hdr := hdr }
  | n + 1, mem, hdr =>
    match mem[n]? with
    | none => .ub
    | some c =>
      if p c ∧ c ≠ nul then stripLoop p pre n (mem.set n nul) hdr
      else .ok { pre := pre, mem := mem, len := n + 1, hdr := hdr }

/-- `stripTrailingWhitespace` (olsrd_info.c 623-633) and `stripTrailingSlashes`
(olsrd_info.c 635-645). -/
def strip (p : Char → Bool) (r : Rq) : Out :=
  if r.len = 0 then .ok r else stripLoop p r.pre r.len r.mem r.hdr

/-- The loop of `skipLeadingWhitespace` (olsrd_info.c 616-619). -/
def skipLoop : Option Char → Str → Nat → Bool → Out
  | _, [], _, _ => .ub
  | pre, c :: m, len, hdr =>
    if isSpace c ∧ c ≠ nul then skipLoop (some c) m (decr len) hdr
    else .ok { pre := pre, mem := c :: m, len := len, hdr := hdr }

/-- `skipLeadingWhitespace` (olsrd_info.c 611-621). -/
def skipLeading (r : Rq) : Out :=
  if r.len = 0 then .ok r else skipLoop r.pre r.mem r.len r.hdr

/-- The loop of `skipMultipleSlashes` (olsrd_info.c 113-118). -/
def slashLoop : Option Char → Str → Nat → Bool → Out
  | pre, a :: b :: m, len, hdr =>
    if b = '/' then slashLoop (some a) (b :: m) (decr len) hdr
    else .ok { pre := pre, mem := a :: b :: m, len := len, hdr := hdr }
  | _, _, _, _ => .ub

/-- `skipMultipleSlashes` (olsrd_info.c 101-120) with a length. -/
def skipSlashes (r : Rq) : Out :=
  if r.len = 0 then .ok r
  else
    match r.mem with
    | [] => .ub
    | a :: m =>
      if a = nul ∨ a ≠ '/' then .ok r
      else
        match m with
        | [] => .ub
        | b :: _ => if b ≠ '/' then .ok r else slashLoop r.pre r.mem r.len r.hdr

/-- `strncasecmp(s, w, n)` is zero, for `w` of length `n` without a
terminator. -/
def sameCase : Str → Str → Bool
  | [], _ => true
  | _ :: _, [] => false
  | w :: ws, c :: cs => lower c = lower w && sameCase ws cs

/-- The characters at `req[i]` on, as an argument for a comparison. -/
def from_ (mem : Str) (i : Nat) : Str := mem.drop i

/-- The character `req[i]` satisfies `p`; out of bounds it does not matter
because the length was tested before (olsrd_info.c 672-677). -/
def charIs (mem : Str) (i : Nat) (p : Char → Bool) : Bool :=
  match mem[i]? with
  | some c => p c
  | none => false

/-- `parseRequest` (olsrd_info.c 666-694). -/
def parseRequest (r : Rq) : Out :=
  if r.len = 0 then .ok r
  else if r.len < 14 ∨ ¬ sameCase ['G', 'E', 'T'] r.mem ∨ ¬ charIs r.mem 3 isSpace ∨
      ¬ charIs r.mem (r.len - 9) isSpace ∨
      ¬ sameCase ['H', 'T', 'T', 'P', '/', '1', '.'] (from_ r.mem (r.len - 8)) ∨
      ¬ charIs r.mem (r.len - 1) (fun c => c = '1' || c = '0') then
    .ok { r with hdr := false }
  else if r.len - 13 < (r.mem.drop 4).length then
    .ok { pre := r.mem[3]?, mem := (r.mem.drop 4).set (r.len - 13) nul, len := r.len - 13, hdr := true }
  else .ub

/-- One prefix of `checkCommandPrefixes` (olsrd_info.c 705-721 and 723-739):
the command behind it, nothing behind it, or no such prefix. -/
def prefixStep (w : Str) (hdr : Bool) (r : Rq) : Option Rq :=
  if w.length + 1 ≤ r.len ∧ sameCase (w ++ ['/']) r.mem then
    some { pre := r.mem[w.length - 1]?, mem := r.mem.drop w.length, len := r.len - w.length, hdr := hdr }
  else if r.len = w.length ∧ sameCase w r.mem then
    some { pre := r.pre, mem := r.mem.set 0 nul, len := 0, hdr := hdr }
  else none

/-- `checkCommandPrefixes` (olsrd_info.c 696-744). -/
def checkPrefixes (r : Rq) : Out :=
  if r.len = 0 then .ok r
  else
    match prefixStep ['/', 'h', 't', 't', 'p'] true r with
    | some r' => .ok r'
    | none =>
      match prefixStep ['/', 'p', 'l', 'a', 'i', 'n'] false r with
      | some r' => .ok r'
      | none => .ok r

/-- The size of `req_buffer` (olsrd_info.c 773). -/
def bufSize : Nat := 1024

/-- The buffer after `recv` wrote `data` (at most `bufSize` characters) into it
and the terminator was set (olsrd_info.c 848-869); `old` is what was in the
buffer before. -/
def received (data old : Str) : Str :=
  if data.length < bufSize then data ++ nul :: old.drop (data.length + 1)
  else data.take (bufSize - 1) ++ [nul]

/-- The clean-up of a request (olsrd_info.c 872-889) for `rx_count > 0`. -/
def sanitise (hdr : Bool) (data old : Str) : Out :=
  (cutAtFirstEOL { pre := none, mem := received data old, len := data.length, hdr := hdr }).next fun r1 =>
  (strip isSpace r1).next fun r2 =>
  (skipLeading r2).next fun r3 =>
  (parseRequest r3).next fun r4 =>
  (strip isSpace r4).next fun r5 =>
  (strip (fun c => c = '/') r5).next fun r6 =>
  (skipLeading r6).next fun r7 =>
  (skipSlashes r7).next fun r8 =>
  (checkPrefixes r8).next fun r9 =>
  skipSlashes r9

/-- The answer that a request was too long (olsrd_info.c 957-969) depends on the
length after the clean-up. -/
def tooLarge (rxCount : Nat) : Bool := bufSize ≤ rxCount

end Verif.InfoReq
