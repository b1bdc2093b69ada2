/-!
# Model of the circular doubly linked list (`src/common/list.c`, `src/common/list.h`)

Nodes are numbers; a pointer is an `Option Nat`, `none` is `NULL`.  The result `none` of an operation is a dereference of
`NULL`.
-/

namespace Verif.LList

/-- the `next` and `prev` fields of all nodes (list.h:52-55) -/
structure Heap where
  next : Nat → Option Nat
  prev : Nat → Option Nat

/-- assignment to a field -/
def upd (f : Nat → Option Nat) (a : Nat) (v : Option Nat) : Nat → Option Nat := fun x => if x = a then v else f x

def Heap.setNext (σ : Heap) (a : Nat) (v : Option Nat) : Heap := { σ with next := upd σ.next a v }
def Heap.setPrev (σ : Heap) (a : Nat) (v : Option Nat) : Heap := { σ with prev := upd σ.prev a v }

/-- `list_head_init` (list.c:50-55) -/
def headInit (σ : Heap) (n : Nat) : Heap := (σ.setPrev n (some n)).setNext n (some n)

/-- `list_node_init` (list.c:57-62) -/
def nodeInit (σ : Heap) (n : Nat) : Heap := (σ.setPrev n none).setNext n none

/-- `list_node_on_list` (list.c:64-72) -/
def onList (σ : Heap) (n : Nat) : Bool := (σ.prev n).isSome || (σ.next n).isSome

/-- `list_is_empty` (list.c:74-82) -/
def isEmpty (σ : Heap) (n : Nat) : Bool := σ.prev n == some n && σ.next n == some n

/-- `list_add_after` (list.c:84-92) -/
def addAfter (σ : Heap) (pos new : Nat) : Option Heap :=
  let σ := σ.setNext new (σ.next pos)
  let σ := σ.setPrev new (some pos)
  (σ.next pos).map fun q =>
  let σ := σ.setPrev q (some new)
  σ.setNext pos (some new)

/-- `list_add_before` (list.c:94-102) -/
def addBefore (σ : Heap) (pos new : Nat) : Option Heap :=
  let σ := σ.setPrev new (σ.prev pos)
  let σ := σ.setNext new (some pos)
  (σ.prev pos).map fun q =>
  let σ := σ.setNext q (some new)
  σ.setPrev pos (some new)

/-- `list_remove` (list.c:104-111) -/
def remove (σ : Heap) (del : Nat) : Option Heap :=
  (σ.next del).bind fun q =>
  let σ := σ.setPrev q (σ.prev del)
  (σ.prev del).map fun p =>
  let σ := σ.setNext p (σ.next del)
  nodeInit σ del

/-- `list_merge` (list.h:71-82) -/
def merge (σ : Heap) (h1 h2 : Nat) : Option Heap :=
  if isEmpty σ h2 then some σ
  else
    (σ.next h1).bind fun q =>
    let σ := σ.setPrev q (σ.prev h2)
    (σ.prev h2).bind fun l =>
    let σ := σ.setNext l (σ.next h1)
    let σ := σ.setNext h1 (σ.next h2)
    (σ.next h2).map fun f =>
    let σ := σ.setPrev f (some h1)
    let σ := σ.setPrev h2 (some h2)
    σ.setNext h2 (some h2)

/-- the operations -/
inductive Op where
  | headInit (n : Nat)
  | addAfter (pos new : Nat)
  | addBefore (pos new : Nat)
  | remove (n : Nat)
  | merge (h1 h2 : Nat)
deriving DecidableEq

def step (σ : Heap) : Op → Option Heap
  | .headInit n => some (headInit σ n)
  | .addAfter p n => addAfter σ p n
  | .addBefore p n => addBefore σ p n
  | .remove n => remove σ n
  | .merge h1 h2 => merge σ h1 h2

def run : Heap → List Op → Option Heap
  | σ, [] => some σ
  | σ, o :: os => (step σ o).bind fun σ => run σ os

/-- all nodes set up by `list_node_init` -/
def fresh : Heap := ⟨fun _ => none, fun _ => none⟩

/-- the loop `for (n = head->next; n != head; n = n->next)` (olsr_spf.c:266, packet.c, ...), or its counterpart with
`prev`, for at most `fuel` rounds; `none` if it runs into `NULL` or is not finished -/
def walk (f : Nat → Option Nat) (head : Nat) : Nat → Nat → Option (List Nat)
  | 0, _ => none
  | fuel + 1, cur => (f cur).bind fun n => if n = head then some [] else (walk f head fuel n).map (n :: ·)

end Verif.LList
