/-!
# Model of the balanced tree (`src/common/olsrd_avl.c`)

Nodes have an identity (`id`) and a key; keys are compared as numbers, which stands for whichever comparison function the
tree was set up with.  The pointers `left`, `right` and `parent` are modelled by trees together with a path to the root;
the `next`/`prev` chain by a list.  The result `none` is a dereference of `NULL`.
-/

namespace Verif.Avl

/-- `struct olsrd_avl_node` as a member of the tree (olsrd_avl.h:52-61) -/
inductive Tree where
  | nil
  | node (l : Tree) (id key : Nat) (bal : Int) (r : Tree)
deriving DecidableEq

/-- one step towards the root: the node was the left (`L`) or right (`R`) child of the parent described -/
inductive Frame where
  | L (id key : Nat) (bal : Int) (r : Tree)
  | R (l : Tree) (id key : Nat) (bal : Int)

/-- the whole tree, seen from a subtree and its path to the root -/
def plug : List Frame → Tree → Tree
  | [], t => t
  | .L id k b r :: p, t => plug p (.node t id k b r)
  | .R l id k b :: p, t => plug p (.node l id k b t)

/-- `olsrd_avl_find_rec` (olsrd_avl.c:94-134), both versions: the node and the path to it -/
def findRec : Tree → Nat → List Frame → Option (Tree × List Frame)
  | .nil, _, _ => none
  | .node l id k b r, key, p =>
    if key < k then
      match l with
      | .nil => some (.node l id k b r, p)
      | .node l1 i1 k1 b1 r1 => findRec (.node l1 i1 k1 b1 r1) key (.L id k b r :: p)
    else if key > k then
      match r with
      | .nil => some (.node l id k b r, p)
      | .node l1 i1 k1 b1 r1 => findRec (.node l1 i1 k1 b1 r1) key (.R l id k b :: p)
    else some (.node l id k b r, p)

/-- `olsrd_avl_rotate_right` (olsrd_avl.c:161-191) -/
def rotateRight : Tree → Option Tree
  | .node (.node ll lid lk lb lr) id k b r =>
    let b := b + (1 - min lb 0)
    let lb := lb + (1 + max b 0)
    some (.node ll lid lk lb (.node lr id k b r))
  | _ => none

/-- `olsrd_avl_rotate_left` (olsrd_avl.c:193-223) -/
def rotateLeft : Tree → Option Tree
  | .node l id k b (.node rl rid rk rb rr) =>
    let b := b - (1 + max rb 0)
    let rb := rb - (1 - min b 0)
    some (.node (.node l id k b rl) rid rk rb rr)
  | _ => none

/-- the `balance` field; reading it from `NULL` is undefined -/
def balance : Tree → Option Int
  | .nil => none
  | .node _ _ _ b _ => some b

/-- `post_insert` (olsrd_avl.c:225-273): the subtree has grown -/
def postInsert : Tree → List Frame → Option Tree
  | t, [] => some t
  | t, .L id k b r :: p =>
    let b := b - 1
    if b = 0 then some (plug p (.node t id k b r))
    else if b = -1 then postInsert (.node t id k b r) p
    else
      (balance t).bind fun tb =>
      if tb = -1 then (rotateRight (.node t id k b r)).map (plug p)
      else
        (rotateLeft t).bind fun t =>
        (rotateRight (.node t id k b r)).map (plug p)
  | t, .R l id k b :: p =>
    let b := b + 1
    if b = 0 then some (plug p (.node l id k b t))
    else if b = 1 then postInsert (.node l id k b t) p
    else
      (balance t).bind fun tb =>
      if tb = 1 then (rotateLeft (.node l id k b t)).map (plug p)
      else
        (rotateRight t).bind fun t =>
        (rotateLeft (.node l id k b t)).map (plug p)

/-- `olsrd_avl_post_delete` (olsrd_avl.c:400-466): the subtree has shrunk.  The same cases are written out a second time in
`olsrd_avl_delete_worker` (olsrd_avl.c:493-548) for a subtree that has become empty -/
def postDelete : Tree → List Frame → Option Tree
  | t, [] => some t
  | t, .L id k b r :: p =>
    let b := b + 1
    if b = 0 then postDelete (.node t id k b r) p
    else if b = 1 then some (plug p (.node t id k b r))
    else
      (balance r).bind fun rb =>
      if rb = 0 then (rotateLeft (.node t id k b r)).map (plug p)
      else if rb = 1 then (rotateLeft (.node t id k b r)).bind fun t => postDelete t p
      else
        (rotateRight r).bind fun r =>
        (rotateLeft (.node t id k b r)).bind fun t => postDelete t p
  | t, .R l id k b :: p =>
    let b := b - 1
    if b = 0 then postDelete (.node l id k b t) p
    else if b = -1 then some (plug p (.node l id k b t))
    else
      (balance l).bind fun lb =>
      if lb = 0 then (rotateRight (.node l id k b t)).map (plug p)
      else if lb = -1 then (rotateRight (.node l id k b t)).bind fun t => postDelete t p
      else
        (rotateLeft l).bind fun l =>
        (rotateRight (.node l id k b t)).bind fun t => postDelete t p

/-- the node with the identity `id` and its path to the root: the pointer handed to `olsrd_avl_delete` -/
def locate : Tree → Nat → List Frame → Option (Tree × List Frame)
  | .nil, _, _ => none
  | .node l i k b r, id, p =>
    if i = id then some (.node l i k b r, p)
    else (locate l id (.L i k b r :: p)).or (locate r id (.R l i k b :: p))

/-- `olsrd_avl_local_min` (olsrd_avl.c:468-475): identity and key of the minimum, its right child, its path to the root -/
def localMin : Tree → List Frame → Option (Nat × Nat × Tree × List Frame)
  | .nil, _ => none
  | .node l id k b r, p =>
    match l with
    | .nil => some (id, k, r, p)
    | .node l1 i1 k1 b1 r1 => localMin (.node l1 i1 k1 b1 r1) (.L id k b r :: p)

/-- one node takes the place, the children and the balance of another (olsrd_avl.c:591-616, 632-659) -/
def replace : Tree → Nat → Nat → Nat → Tree
  | .nil, _, _, _ => .nil
  | .node l i k b r, id, nid, nk =>
    .node (replace l id nid nk) (if i = id then nid else i) (if i = id then nk else k) b (replace r id nid nk)

/-- `olsrd_avl_delete_worker` (olsrd_avl.c:477-616) -/
def deleteWorker (root : Tree) (id : Nat) : Option Tree :=
  (locate root id []).bind fun f =>
  match f.1 with
  | .nil => none
  | .node .nil _ _ _ r => postDelete r f.2
  | .node l _ _ _ .nil => postDelete l f.2
  | .node l i k b r =>
    (localMin r (.R l i k b :: f.2)).bind fun m =>
    (postDelete m.2.2.1 m.2.2.2).map fun t => replace t id m.1 m.2.1

/-- a member of the `next` chain -/
structure Elem where
  id : Nat
  key : Nat
  leader : Bool
deriving DecidableEq

/-- `struct olsrd_avl_tree` (olsrd_avl.h:65-71); `first` and `last` are the ends of `list` -/
structure State where
  root : Tree
  list : List Elem
  count : Nat
deriving DecidableEq

/-- `olsrd_avl_init` (olsrd_avl.c:82-91) -/
def init : State := ⟨.nil, [], 0⟩

/-- `olsrd_avl_insert_before` (olsrd_avl.c:275-290) -/
def insertBefore : List Elem → Nat → Elem → List Elem
  | [], _, _ => []
  | x :: xs, pos, e => if x.id = pos then e :: x :: xs else x :: insertBefore xs pos e

/-- the loop looking for `last` (olsrd_avl.c:353-354) and `olsrd_avl_insert_after` (olsrd_avl.c:292-307) -/
def insertAfter : List Elem → Nat → Elem → List Elem
  | [], _, _ => []
  | x :: xs, pos, e =>
    if x.id = pos then x :: (xs.takeWhile (!·.leader) ++ e :: xs.dropWhile (!·.leader)) else x :: insertAfter xs pos e

/-- `olsrd_avl_insert` (olsrd_avl.c:325-398); the flag is true if the node was inserted -/
def insert (s : State) (id key : Nat) (dup : Bool) : Option (State × Bool) :=
  match s.root with
  | .nil => some (⟨.node .nil id key 0 .nil, [⟨id, key, true⟩], 1⟩, true)
  | .node _ _ _ _ _ =>
    (findRec s.root key []).bind fun f =>
    match f.1 with
    | .nil => none
    | .node l nid nk nb r =>
      if key = nk then
        if dup then some ({ s with list := insertAfter s.list nid ⟨id, key, false⟩, count := s.count + 1 }, true)
        else some (s, false)
      else if nb = 1 then
        some (⟨plug f.2 (.node (.node .nil id key 0 .nil) nid nk 0 r), insertBefore s.list nid ⟨id, key, true⟩,
          s.count + 1⟩, true)
      else if nb = -1 then
        some (⟨plug f.2 (.node l nid nk 0 (.node .nil id key 0 .nil)), insertAfter s.list nid ⟨id, key, true⟩,
          s.count + 1⟩, true)
      else if key < nk then
        (postInsert (.node (.node .nil id key 0 .nil) nid nk (-1) r) f.2).map fun t =>
          (⟨t, insertBefore s.list nid ⟨id, key, true⟩, s.count + 1⟩, true)
      else
        (postInsert (.node l nid nk 1 (.node .nil id key 0 .nil)) f.2).map fun t =>
          (⟨t, insertAfter s.list nid ⟨id, key, true⟩, s.count + 1⟩, true)

/-- `olsrd_avl_remove` (olsrd_avl.c:309-323) on the chain -/
def unlink (l : List Elem) (id : Nat) : List Elem := l.eraseP (·.id = id)

/-- the node and the one behind it in the chain -/
def findElem : List Elem → Nat → Option (Elem × Option Elem)
  | [], _ => none
  | x :: xs, id => if x.id = id then some (x, xs.head?) else findElem xs id

/-- `next->leader = 1` (olsrd_avl.c:630) -/
def setLeader (l : List Elem) (id : Nat) : List Elem := l.map fun e => if e.id = id then { e with leader := true } else e

/-- `olsrd_avl_delete` (olsrd_avl.c:618-666) of a node of the tree -/
def delete (s : State) (id : Nat) : Option State :=
  (findElem s.list id).bind fun e =>
  if e.1.leader then
    match e.2 with
    | some n =>
      if n.leader then (deleteWorker s.root id).map fun t => ⟨t, unlink s.list id, s.count - 1⟩
      else some ⟨replace s.root id n.id n.key, unlink (setLeader s.list n.id) id, s.count - 1⟩
    | none => (deleteWorker s.root id).map fun t => ⟨t, unlink s.list id, s.count - 1⟩
  else some ⟨s.root, unlink s.list id, s.count - 1⟩

/-- `olsrd_avl_find` (olsrd_avl.c:136-159): the identity of the node found -/
def find (s : State) (key : Nat) : Option Nat :=
  match findRec s.root key [] with
  | some (.node _ i k _ _, _) => if k = key then some i else none
  | _ => none

inductive Op where
  | insert (id key : Nat) (dup : Bool)
  | delete (id : Nat)
deriving DecidableEq

def step (s : State) : Op → Option State
  | .insert id key dup => (insert s id key dup).map (·.1)
  | .delete id => delete s id

def run : State → List Op → Option State
  | s, [] => some s
  | s, o :: os => (step s o).bind fun s => run s os

end Verif.Avl
