/-!
# Model of the detection of duplicates in the PUD plugin

`lib/pud/src/dedup.c` and its use in `packetReceivedFromOlsr` (lib/pud/src/pud.c 175-208).

A message is its sequence number and its originator, both compared byte by byte (dedup.c 181-194; the two branches differ in
the size of the address only).  The conversion of a message into text (C79-C82) is its outcome: whether there
is a text.  `size_t` and `unsigned long long` have 64 bits, `sizeof(DeDupEntry)` is 20 (dedup.h 60-63: two bytes, two
bytes of padding, an address of 16 bytes).
-/

namespace Verif.Dedup

/-- Sequence number and originator. -/
abbrev Msg := Nat × Nat

/-- `DeDupList` (dedup.h 71-77).  `entries` are the ones that the allocated memory has room for. -/
structure DList where
  max : Nat
  entries : List Msg
  count : Nat
  newest : Nat
deriving DecidableEq, Repr

/-- The number of entries in the block that `olsr_malloc(maxEntries * sizeof(DeDupEntry))` returns (dedup.c 86-90):
the product is one of `size_t`. -/
def room (n : Nat) : Nat := n * 20 % 2 ^ 64 / 20

/-- `initDeDupList` (dedup.c 75-101): `none` is failure.  The memory is cleared (olsr.c 595-603). -/
def init (n : Nat) : Option DList :=
  if n < 1 then none
  else some { max := n, entries := List.replicate (room n) (0, 0), count := 0, newest := 0 }

/-- `INCOMINGINDEX` (dedup.c 58-59). -/
def incoming (l : DList) : Nat := (l.newest + l.max - 1) % l.max

/-- `addToDeDup` (dedup.c 131-154): `none` is a write outside of the block. -/
def add (l : DList) (m : Msg) : Option DList :=
  if incoming l < l.entries.length then
    some { l with
      entries := l.entries.set (incoming l) m
      newest := incoming l
      count := if l.count < l.max then l.count + 1 else l.count }
  else none

/-- The loop of `isInDeDupList` (dedup.c 179-203): `none` is a read outside of the block. -/
def isInLoop (l : DList) (m : Msg) : Nat → Nat → Option Bool
  | 0, _ => some false
  | c + 1, i =>
    match l.entries[i]? with
    | none => none
    | some e => if e = m then some true else isInLoop l m c ((i + 1) % l.max)

/-- `isInDeDupList` (dedup.c 169-206). -/
def isIn (l : DList) (m : Msg) : Option Bool := isInLoop l m l.count l.newest

/-- `useLoopback`, `useDeDup` (configuration.c 1379-1430) and the main address. -/
structure Cfg where
  loopback : Bool
  dedup : Bool
  own : Nat
deriving DecidableEq, Repr

/-- `packetReceivedFromOlsr` (pud.c 175-208) for a message and whether its conversion gives a text: the list
afterwards, and whether the text was sent. -/
def receive (c : Cfg) (l : DList) (m : Msg) (text : Bool) : Option (DList × Bool) :=
  if c.loopback = false ∧ m.2 = c.own then some (l, false)
  else if c.dedup = true then
    match isIn l m with
    | none => none
    | some true => some (l, false)
    | some false =>
      match add l m with
      | none => none
      | some l' => some (l', text)
  else some (l, text)

/-- A series of messages: the list afterwards and what was sent for each. -/
def run (c : Cfg) (l : DList) : List (Msg × Bool) → Option (DList × List Bool)
  | [] => some (l, [])
  | (m, t) :: ms =>
    match receive c l m t with
    | none => none
    | some (l', b) =>
      match run c l' ms with
      | none => none
      | some (l'', bs) => some (l'', b :: bs)

end Verif.Dedup
