/-
Model of the block allocator `src/olsr_cookie.c` (`olsr_cookie.h`).

The heap maps an address to the bytes of the block that the C library allocated there; blocks are
separate objects.  A read or write outside a block, and the use of an address without block, is
undefined behaviour.
-/

namespace Verif.Cookie

/-- How a call ends: normally, with a failed `assert`, with `olsr_exit`, or undefined.  `notFresh`
is no behaviour of the code: the address proposed for `calloc` was in use. -/
inductive Out (α : Type) where
  | ok (a : α)
  | abort
  | exit
  | ub
  | notFresh
deriving DecidableEq, Repr

/-- `struct olsr_cookie_info` (olsr_cookie.h:66-75) of a memory cookie: block size, `ci_usage`,
`ci_free_list_usage` and the free list, first element first.  Name and statistics of changes are not
modelled. -/
structure Ck where
  size : Nat
  usage : Nat
  flu : Nat
  flist : List Nat
deriving DecidableEq, Repr

/-- The heap and the array `cookies` (olsr_cookie.c:54). -/
structure St where
  heap : Nat → Option (List Nat)
  ck : Nat → Option Ck

/-- Changes a map at one place. -/
def upd {α : Type} (f : Nat → Option α) (p : Nat) (v : Option α) : Nat → Option α :=
  fun q => if q = p then v else f q

/-- Overwrites the bytes from `off` on. -/
def writeAt (b : List Nat) (off : Nat) (bs : List Nat) : List Nat :=
  b.take off ++ bs ++ b.drop (off + bs.length)

/-- `unsigned int` arithmetic. -/
def u32 (n : Nat) : Nat := n % 4294967296

/-- `struct olsr_cookie_mem_brand` (olsr_cookie.h:83-86) of a cookie: "cookie" and the 16 bit id. -/
def brand (id : Nat) : List Nat := [99, 111, 111, 107, 105, 101, id % 256, id / 256 % 256]

/-- The first unused index from `i` on among `n` ones (olsr_cookie.c:69-73). -/
def firstFree (ck : Nat → Option Ck) : Nat → Nat → Option Nat
  | _, 0 => none
  | i, n + 1 => if (ck i).isNone then some i else firstFree ck (i + 1) n

/-- `olsr_alloc_cookie` (olsr_cookie.c:59-98) for a memory cookie followed by
`olsr_cookie_set_memory_size` (olsr_cookie.c:151-160), as all callers do it.  The ids are 1 to 49
(`COOKIE_ID_MAX` is 50). -/
def newCookie (size : Nat) (st : St) : Out (St × Nat) :=
  match firstFree st.ck 1 49 with
  | none => .exit
  | some i => .ok ({ st with ck := upd st.ck i (some ⟨size, 0, 0, []⟩) }, i)

/-- `free` of all blocks of a list. -/
def freeAll (heap : Nat → Option (List Nat)) : List Nat → Out (Nat → Option (List Nat))
  | [] => .ok heap
  | q :: r => if (heap q).isSome then freeAll (upd heap q none) r else .ub

/-- `olsr_free_cookie` (olsr_cookie.c:103-126) for a memory cookie. -/
def delCookie (i : Nat) (st : St) : Out St :=
  match st.ck i with
  | none => .ub
  | some c =>
    match freeAll st.heap c.flist with
    | .ok h => .ok ⟨h, upd st.ck i none⟩
    | _ => .ub

/-- The end of `olsr_cookie_malloc` (olsr_cookie.c:260-276): the brand and the statistics. -/
def finishMalloc (i : Nat) (c : Ck) (p : Nat) (b : List Nat) (st : St) : Out (St × Nat) :=
  if c.size + 8 ≤ b.length then
    .ok (⟨upd st.heap p (some (writeAt b c.size (brand i))),
      upd st.ck i (some { c with usage := u32 (c.usage + 1) })⟩, p)
  else .ub

/-- `olsr_cookie_malloc` (olsr_cookie.c:217-277).  `p` is the address that `calloc` returns if it is
called; `calloc` does not fail (otherwise olsrd exits).  An empty free list with a count that is not
0 would hand out the list head: undefined behaviour.  The links stored in the other blocks of the
free list are not modelled; they lie in bytes that are cleared before the block is used again. -/
def malloc (i p : Nat) (st : St) : Out (St × Nat) :=
  match st.ck i with
  | none => .ub
  | some c =>
    if c.flu = 0 then
      if (st.heap p).isSome then .notFresh
      else finishMalloc i c p (List.replicate (c.size + 8) 0) st
    else
      match c.flist with
      | [] => .ub
      | q :: r =>
        match st.heap q with
        | none => .ub
        | some b =>
          if c.size ≤ b.length then
            finishMalloc i { c with flu := u32 (c.flu + 4294967295), flist := r } q
              (writeAt b 0 (List.replicate c.size 0)) st
          else .ub

/-- The second half of `olsr_cookie_free` (olsr_cookie.c:302-328) for a block with the bytes `b`
(with the brand already checked).  `links` are the 16 bytes of the list node. -/
def finishFree (i p : Nat) (links : List Nat) (c : Ck) (b : List Nat) (st : St) : Out St :=
  if c.flu < 10 ∨ c.flu < c.usage / 10 then
    if links.length ≤ b.length then
      .ok ⟨upd st.heap p (some (writeAt (writeAt b c.size (List.replicate 8 0)) 0 links)),
        upd st.ck i (some { c with usage := u32 (c.usage + 4294967295), flu := u32 (c.flu + 1)
                                   flist := c.flist ++ [p] })⟩
    else .ub
  else
    .ok ⟨upd st.heap p none, upd st.ck i (some { c with usage := u32 (c.usage + 4294967295) })⟩

/-- `olsr_cookie_free` (olsr_cookie.c:283-334).  `dbg`: compiled with assertions (`DEBUG=1`, the
default; otherwise Makefile.inc:335 sets `NDEBUG`). -/
def free (dbg : Bool) (i p : Nat) (links : List Nat) (st : St) : Out St :=
  match st.ck i with
  | none => .ub
  | some c =>
    match st.heap p with
    | none => .ub
    | some b =>
      if b.length < c.size + 8 then .ub
      else if dbg ∧ (b.drop c.size).take 6 ≠ (brand i).take 6 then .abort
      else if dbg ∧ (b.drop (c.size + 6)).take 2 ≠ (brand i).drop 6 then .abort
      else finishFree i p links c b st

/-- The user of a block writes to it. -/
def write (p off : Nat) (bs : List Nat) (st : St) : Out St :=
  match st.heap p with
  | none => .ub
  | some b =>
    if off + bs.length ≤ b.length then .ok { st with heap := upd st.heap p (some (writeAt b off bs)) }
    else .ub

/-- At start there are no cookies and no blocks. -/
def init : St := ⟨fun _ => none, fun _ => none⟩

/-- The calls that a client makes. -/
inductive Op where
  | new (size : Nat)
  | del (i : Nat)
  | malloc (i p : Nat)
  | free (i p : Nat) (links : List Nat)
  | write (p off : Nat) (bs : List Nat)
deriving DecidableEq, Repr

/-- Adds the result 0 to a call without result. -/
def void : Out St → Out (St × Nat)
  | .ok st => .ok (st, 0)
  | .abort => .abort
  | .exit => .exit
  | .ub => .ub
  | .notFresh => .notFresh

/-- One call with its result: the functions above (olsr_cookie.c:59-334). -/
def step (dbg : Bool) (st : St) : Op → Out (St × Nat)
  | .new size => newCookie size st
  | .del i => void (delCookie i st)
  | .malloc i p => malloc i p st
  | .free i p links => void (free dbg i p links st)
  | .write p off bs => void (write p off bs st)

end Verif.Cookie
