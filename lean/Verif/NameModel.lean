/-
Model of the messages and tables of the nameservice plugin:
`lib/nameservice/src/nameservice.c`, `nameservice.h`, `nameservice_msg.h`.

Bytes are natural numbers.  A C string is the list of its bytes without the terminating NUL.
Memory that may be read is a list of bytes; a read behind its end is the outcome `none`
(undefined behaviour).
-/

namespace Verif.Name

/-- One `struct name_entry` (nameservice.h:95-101).  The `next` pointer is the list structure;
the address is kept as the 16 bytes of `union olsr_ip_addr`. -/
structure Ent where
  typ : Nat
  len : Nat
  name : List Nat
  ip : List Nat
deriving DecidableEq, Repr

/-- `ipequal` (ipcalc.h:75-78): only the bytes of the address family in use are compared. -/
def ipEq (v6 : Bool) (a b : List Nat) : Bool :=
  a.take (if v6 then 16 else 4) == b.take (if v6 then 16 else 4)

/-- `htons` followed by a store of the two bytes. -/
def put16 (n : Nat) : List Nat := [n / 256 % 256, n % 256]

/-- `create_packet` (nameservice.c:791-809): `struct name` (nameservice_msg.h:66-75: type, len and
16 address bytes, for IPv4 as well), the bytes of the name, and NULs while `k & 3` is not 0. -/
def createPacket (e : Ent) : List Nat :=
  put16 e.typ ++ put16 e.len ++ e.ip ++ e.name.take e.len
    ++ List.replicate ((4 - e.len % 4) % 4) 0

/-- All entries in the order in which `encap_namemsg` (nameservice.c:724-789) writes them: names,
forwarders, services, MACs, position. -/
def announced (names fwds svcs macs : List Ent) (latlon : Option Ent) : List Ent :=
  names ++ fwds ++ svcs ++ macs ++ latlon.toList

/-- `encap_namemsg` (nameservice.c:724-789) into the buffer of `olsr_namesvc_gen`
(nameservice.c:608: 10240 bytes, of which `hdr` hold the message header).  Writing more than the
buffer holds is undefined behaviour, `none`.  The reading of `latlon_in_file` is not modelled: the
position entry is given.  `struct namemsg` holds the version (1) and the number of entries. -/
def encap (hdr : Nat) (l : List Ent) : Option (List Nat) :=
  if hdr + 4 + (l.flatMap createPacket).length ≤ 10240 then
    some (put16 1 ++ put16 (l.length % 65536) ++ l.flatMap createPacket)
  else none

/-- A 16 bit number in network order. -/
def get16 : List Nat → Option Nat
  | a :: b :: _ => some (a * 256 + b)
  | _ => none

/-- The string that starts at the given place; `none` if there is no NUL in what may be read. -/
def cstr : List Nat → Option (List Nat)
  | [] => none
  | b :: r => if b = 0 then some [] else
    match cstr r with
    | none => none
    | some s => some (b :: s)

/-- `[[:alnum:]_.-]` in the C locale (nameservice.c:373). -/
def hostByte (b : Nat) : Bool :=
  (48 ≤ b && b ≤ 57) || (65 ≤ b && b ≤ 90) || (97 ≤ b && b ≤ 122) || b == 95 || b == 46 || b == 45

/-- `is_name_wellformed` (nameservice.c:1498-1502) with the expression `^[[:alnum:]_.-]+$`. -/
def hostWf (s : List Nat) : Bool := !s.isEmpty && s.all hostByte

/-- The four syntax checks of `decap_namemsg` (nameservice.c:826-829).  The checks of services,
MACs and positions (regular expression and `sscanf`) are the parameter `wf`; forwarders (type 1)
are not checked. -/
def wellformed (wf : Nat → List Nat → Bool) (typ : Nat) (s : List Nat) : Bool :=
  if typ = 0 then hostWf s
  else if typ = 1 then true
  else wf typ s

/-- `strncmp(a, b, n) == 0` of two strings. -/
def strncmpEq (a b : List Nat) (n : Nat) : Bool := (a ++ [0]).take n == (b ++ [0]).take n

/-- The loop over the saved entries (nameservice.c:842-879).  `none`: the loop ran to the end.
`some (l, c)`: the function returned inside the loop, the list is now `l`, and `c` tells whether
the changed flag was set. -/
def scan (v6 : Bool) (typ len : Nat) (s ip : List Nat) : List Ent → Option (List Ent × Bool)
  | [] => none
  | e :: r =>
    if (typ = 0 ∨ typ = 2) ∧ strncmpEq e.name s len = true then some (e :: r, false)
    else if typ = 1 ∧ ipEq v6 e.ip ip = true then some (e :: r, false)
    else if typ = 3 then
      some ({ e with name := if strncmpEq e.name s len then e.name else s
                     ip := if ipEq v6 e.ip ip then e.ip else ip } :: r,
            !strncmpEq e.name s len || !ipEq v6 e.ip ip)
    else
      match scan v6 typ len s ip r with
      | none => none
      | some (r', c) => some (e :: r', c)

/-- The end of `decap_namemsg` (nameservice.c:840-898): an entry that was not found is put at the
front. -/
def addName (v6 : Bool) (typ len : Nat) (s ip : List Nat) (to : List Ent) : List Ent × Bool :=
  match scan v6 typ len s ip to with
  | some x => x
  | none => (⟨typ, len, s, ip⟩ :: to, true)

/-- The check of length and characters (nameservice.c:835): `MAX_NAME` is 127, 92 is the backslash
and 39 the apostrophe. -/
def goodName (len : Nat) (s : List Nat) : Bool :=
  decide (len ≤ 127) && decide (s.length = len) && !s.contains 92 && !s.contains 39

/-- `decap_namemsg` (nameservice.c:814-898), with the memory from `from_packet` on.  The name is
read up to its NUL unless a forwarder is longer than 127 (line 835 stops at the first test).  The
debug output is not modelled. -/
def decap (wf : Nat → List Nat → Bool) (v6 : Bool) (b : List Nat) (to : List Ent) :
    Option (List Ent × Bool) :=
  match get16 b, get16 (b.drop 2) with
  | some typ, some len =>
    if b.length < 20 then none
    else if typ = 1 ∧ 127 < len then some (to, false)
    else
      match cstr (b.drop 20) with
      | none => none
      | some s =>
        if wellformed wf typ s && goodName len s then
          some (addName v6 typ len s ((b.drop 4).take 16) to)
        else some (to, false)
  | _, _ => none

/-- The tables (nameservice.c:107-128): for each type and originator the names of its
`struct db_entry`, if there is one, and the five changed flags.  The hash chains are not modelled:
`insert_new_name_in_list` compares the whole originator.  The validity timers are not modelled;
`expire` may happen at any time. -/
structure St where
  db : Nat → List Nat → Option (List Ent)
  chg : Nat → Bool

/-- `insert_new_name_in_list` (nameservice.c:960-1013) for the table of type `typ`. -/
def insertName (wf : Nat → List Nat → Bool) (v6 : Bool) (typ : Nat) (o b : List Nat) (st : St) :
    Option St :=
  match decap wf v6 b ((st.db typ o).getD []) with
  | none => none
  | some (l, c) =>
    some { db := fun t o' => if t = typ ∧ o' = o then some l else st.db t o'
           chg := fun t => if t = typ ∧ c = true then true else st.chg t }

/-- `1 + ((len - 1) | 3)` in `int` arithmetic (nameservice.c:949); for 0 it is `1 + (-1 | 3) = 0`. -/
def padded (len : Nat) : Nat := if len = 0 then 0 else 1 + ((len - 1) ||| 3)

/-- The loop of `update_name_entry` (nameservice.c:923-950) with the memory from `pos` on and
`left = end_pos - pos`. -/
def updLoop (wf : Nat → List Nat → Bool) (v6 : Bool) (o : List Nat) :
    Nat → Int → List Nat → St → Option St
  | 0, _, _, st => some st
  | i + 1, left, b, st =>
    if 0 < left then
      match get16 b with
      | none => none
      | some typ =>
        match (if typ ≤ 4 then insertName wf v6 typ o b st else some st) with
        | none => none
        | some st' =>
          match get16 (b.drop 2) with
          | none => none
          | some len =>
            updLoop wf v6 o i (left - (20 + padded len)) (b.drop (20 + padded len)) st'
    else some st

/-- `update_name_entry` (nameservice.c:904-954).  `b` is the memory from the body of the message to
the end of the receive buffer (parser.c:83-84: 1504 bytes altogether); `size` is the size field of
the message, which counts the message header as well (nameservice.c:687-693, 715).  `sizeof(struct
name *)` is 8. -/
def update (wf : Nat → List Nat → Bool) (v6 : Bool) (o : List Nat) (size : Nat) (b : List Nat)
    (st : St) : Option St :=
  match get16 b, get16 (b.drop 2) with
  | some ver, some n =>
    if ver = 1 then updLoop wf v6 o n ((size : Int) - 8) (b.drop 4) st else some st
  | some ver, none => if ver = 1 then none else some st
  | none, _ => none

/-- Expiry of the `struct db_entry` of an originator (nameservice.c:573-603) with
`free_name_entry_list` (nameservice.c:1401-1436), which sets the flag belonging to the type stored
in each name. -/
def expire (typ : Nat) (o : List Nat) (st : St) : St :=
  { db := fun t o' => if t = typ ∧ o' = o then none else st.db t o'
    chg := fun t => st.chg t || (((st.db typ o).getD []).any fun e => decide (e.typ = t)) }

/-- The tables at start (nameservice.c:111-128, 180-186): empty, and marked as changed. -/
def init : St := ⟨fun _ _ => none, fun _ => true⟩

/-- What can happen to the tables.  `write t` stands for the writing of the file of table `t`, which
clears its flag (nameservice.c:1172, 1256, 1267, 1395). -/
inductive Op where
  | msg (o : List Nat) (size : Nat) (b : List Nat)
  | expire (t : Nat) (o : List Nat)
  | write (t : Nat)

/-- One event. -/
def step (wf : Nat → List Nat → Bool) (v6 : Bool) : Op → St → Option St
  | .msg o size b, st => update wf v6 o size b st
  | .expire t o, st => some (expire t o st)
  | .write t, st => some { st with chg := fun t' => if t' = t then false else st.chg t' }

/-- A sequence of events. -/
def run (wf : Nat → List Nat → Bool) (v6 : Bool) : List Op → St → Option St
  | [], st => some st
  | op :: r, st =>
    match step wf v6 op st with
    | none => none
    | some st' => run wf v6 r st'

end Verif.Name
