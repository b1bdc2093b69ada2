/-
Model of the doubly linked list of the p2pd plugin, /repo/lib/p2pd/src/dllist.c,
and of the duplicate filter that is built on it, /repo/lib/p2pd/src/p2pd.c
303-413.

Nodes live on a heap; a node that has been freed is gone, and touching it is an
error (`none`).  Simplifications: `calloc` always succeeds and never returns an
address that has been used before; the data hangs in the node itself; a loop that
makes more steps than nodes have ever been allocated does not end (`none`).
-/
namespace Verif.Dl

/-- `struct node`, dllist.h. -/
structure Node (α : Type) where
  prev : Option Nat
  next : Option Nat
  data : α

/-- The list (its two ends) and the heap; `fresh` is the next address. -/
structure DL (α : Type) where
  head : Option Nat
  tail : Option Nat
  heap : Nat → Option (Node α)
  fresh : Nat

/-- Writing one cell of the heap. -/
def upd {α : Type} (h : Nat → Option (Node α)) (a : Nat) (v : Option (Node α)) :
    Nat → Option (Node α) :=
  fun x => if x = a then v else h x

/-- `a->next = v`; an error if `a` is not allocated. -/
def setNext {α : Type} (h : Nat → Option (Node α)) (a : Nat) (v : Option Nat) :
    Option (Nat → Option (Node α)) :=
  (h a).map (fun n => upd h a (some ⟨n.prev, v, n.data⟩))

/-- `a->prev = v`; an error if `a` is not allocated. -/
def setPrev {α : Type} (h : Nat → Option (Node α)) (a : Nat) (v : Option Nat) :
    Option (Nat → Option (Node α)) :=
  (h a).map (fun n => upd h a (some ⟨v, n.next, n.data⟩))

/-- p2pd.c 101-102: both ends are NULL at first. -/
def empty (α : Type) : DL α := ⟨none, none, fun _ => none, 0⟩

/-- dllist.c 61-76: `append_node`. -/
def append {α : Type} (d : DL α) (x : α) : Option (DL α) :=
  match d.head with
  | none => some ⟨some d.fresh, some d.fresh, upd d.heap d.fresh (some ⟨none, none, x⟩), d.fresh + 1⟩
  | some h =>
    match d.tail with
    | none => none
    | some t =>
      (setNext (upd d.heap d.fresh (some ⟨some t, none, x⟩)) t (some d.fresh)).map
        (fun hp => ⟨some h, some d.fresh, hp, d.fresh + 1⟩)

/-- dllist.c 94-95: is the node on the list? -/
def find {α : Type} (h : Nat → Option (Node α)) (a : Nat) : Nat → Option Nat → Option Bool
  | _, none => some false
  | 0, some _ => none
  | fuel + 1, some c =>
    if c = a then some true
    else match h c with
      | none => none
      | some n => find h a fuel n.next

/-- dllist.c 101-111: unlinking node `a` with contents `n`. -/
def unlink {α : Type} (d : DL α) (a : Nat) (n : Node α) : Option (DL α) :=
  if d.head = some a then some { d with head := n.next }
  else if d.tail = some a then some { d with tail := n.prev }
  else match n.prev, n.next with
    | some p, some q =>
      (setNext d.heap p (some q)).bind (fun h1 =>
        (setPrev h1 q (some p)).map (fun h2 => { d with heap := h2 }))
    | _, _ => none

/-- dllist.c 113-114 -/
def fixHead {α : Type} (d : DL α) : Option (DL α) :=
  match d.head with
  | none => some d
  | some h => (setPrev d.heap h none).map (fun hp => { d with heap := hp })

/-- dllist.c 116-117 -/
def fixTail {α : Type} (d : DL α) : Option (DL α) :=
  match d.tail with
  | none => some d
  | some t => (setNext d.heap t none).map (fun hp => { d with heap := hp })

/-- dllist.c 119-122 -/
def release {α : Type} (d : DL α) (a : Nat) : Option (DL α) :=
  match d.heap a with
  | none => none
  | some _ => some { d with heap := upd d.heap a none }

/-- dllist.c 90-126: `remove_node`. -/
def remove {α : Type} (d : DL α) (a : Nat) : Option (DL α) :=
  match find d.heap a (d.fresh + 1) d.head with
  | none => none
  | some false => some d
  | some true =>
    match d.heap a with
    | none => none
    | some n =>
      (unlink d a n).bind (fun d1 => (fixHead d1).bind (fun d2 =>
        (fixTail d2).bind (fun d3 => release d3 a)))

/-- dllist.c 137-141: `clear_list`. -/
def clear {α : Type} : Nat → DL α → Option (DL α)
  | fuel, d =>
    match d.head with
    | none => some d
    | some a =>
      match fuel with
      | 0 => none
      | fuel + 1 => (remove d a).bind (fun e => clear fuel e)

/-! ### The duplicate filter -/

/-- `struct DupFilterEntry`, p2pd.h: originator, message type and sequence number
as `key`, and the time of creation. -/
structure Dup (κ : Type) where
  time : Nat
  key : κ
  deriving DecidableEq, Repr

/-- p2pd.c 311-325: the loop that removes the entries that have aged. -/
def age {κ : Type} (timeout now : Nat) : Nat → Option Nat → DL (Dup κ) → Option (DL (Dup κ))
  | _, none, d => some d
  | 0, some _, _ => none
  | fuel + 1, some c, d =>
    match d.heap c with
    | none => none
    | some n =>
      if n.data.time + timeout < now then
        (remove d c).bind (fun e => age timeout now fuel n.next e)
      else age timeout now fuel n.next d

/-- p2pd.c 327-347: the loop that looks for the message. -/
def lookup {κ : Type} [DecidableEq κ] (h : Nat → Option (Node (Dup κ))) (k : κ) :
    Nat → Option Nat → Option Bool
  | _, none => some false
  | 0, some _ => none
  | fuel + 1, some c =>
    match h c with
    | none => none
    | some n => if n.data.key = k then some true else lookup h k fuel n.next

/-- p2pd.c 303-350 (`p2pd_message_seen`), 361-391 (`p2pd_store_message`) and
400-411 (`p2pd_is_duplicate_message`): is the message with this key, arriving at
time `now`, a duplicate? -/
def isDuplicate {κ : Type} [DecidableEq κ] (timeout now : Nat) (k : κ) (d : DL (Dup κ)) :
    Option (Bool × DL (Dup κ)) :=
  (age timeout now (d.fresh + 1) d.head d).bind (fun e =>
    (lookup e.heap k (e.fresh + 1) e.head).bind (fun s =>
      if s then some (true, e) else (append e ⟨now, k⟩).map (fun f => (false, f))))

/-- A sequence of messages with the times at which they arrive: the answers. -/
def answers {κ : Type} [DecidableEq κ] (timeout : Nat) : DL (Dup κ) → List (Nat × κ) →
    Option (List Bool)
  | _, [] => some []
  | d, (now, k) :: ms =>
    (isDuplicate timeout now k d).bind (fun r => (answers timeout r.2 ms).map (r.1 :: ·))

/-- A use of the list: appending, or removing the node at an address. -/
inductive Op (α : Type) where
  | append (x : α)
  | remove (a : Nat)
  | clear

/-- One use. -/
def apply {α : Type} (d : DL α) : Op α → Option (DL α)
  | .append x => append d x
  | .remove a => remove d a
  | .clear => clear (d.fresh + 1) d

/-- A sequence of uses. -/
def run {α : Type} : DL α → List (Op α) → Option (DL α)
  | d, [] => some d
  | d, o :: os => (apply d o).bind (fun e => run e os)

/-- Reading the list from its head on, as the loop of p2pd.c 328 does. -/
def forward {α : Type} (h : Nat → Option (Node α)) : Nat → Option Nat → Option (List (Nat × α))
  | _, none => some []
  | 0, some _ => none
  | fuel + 1, some c =>
    match h c with
    | none => none
    | some n => (forward h fuel n.next).map ((c, n.data) :: ·)

/-- Reading the list backwards from its tail. -/
def backward {α : Type} (h : Nat → Option (Node α)) : Nat → Option Nat → Option (List (Nat × α))
  | _, none => some []
  | 0, some _ => none
  | fuel + 1, some c =>
    match h c with
    | none => none
    | some n => (backward h fuel n.prev).map ((c, n.data) :: ·)

end Verif.Dl
