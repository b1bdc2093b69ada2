import Verif.CookieModel

/-
What a client of the allocator relies on, stated without heap, brands and free lists.
-/

namespace Verif.Cookie

/-- A block in use: where it is, for which cookie it was allocated, and what the client has stored. -/
structure Rec where
  ptr : Nat
  id : Nat
  data : List Nat
deriving DecidableEq, Repr

/-- The client's view: its blocks and the block sizes of the existing cookies. -/
structure Sp where
  live : List Rec
  sizes : Nat → Option Nat

/-- The data after bytes from `off` on have been replaced. -/
def overwrite (d : List Nat) (off : Nat) (bs : List Nat) : List Nat :=
  (List.range d.length).map fun j =>
    if off ≤ j ∧ j < off + bs.length then bs.getD (j - off) 0 else d.getD j 0

/-- The calls allowed to a client: it frees only what it has, for the right cookie, and writes only
to the bytes it asked for.  Block sizes are at least 16, the size of a list node. -/
def Legal (sp : Sp) : Op → Prop
  | .new size => 16 ≤ size ∧ ∃ i, 1 ≤ i ∧ i ≤ 49 ∧ sp.sizes i = none
  | .del i => (sp.sizes i).isSome ∧ ∀ r ∈ sp.live, r.id ≠ i
  | .malloc i _ => (sp.sizes i).isSome
  | .free i p links => (∃ r ∈ sp.live, r.ptr = p ∧ r.id = i) ∧ links.length = 16
  | .write p off bs => ∃ r ∈ sp.live, r.ptr = p ∧ off + bs.length ≤ r.data.length

/-- `calloc` returns an address that is not in use. -/
def Fresh (st : St) : Op → Prop
  | .malloc _ p => st.heap p = none
  | _ => True

/-- What a call with the result `res` means to the client. -/
def spStep (sp : Sp) (res : Nat) : Op → Sp
  | .new size => { sp with sizes := fun j => if j = res then some size else sp.sizes j }
  | .del i => { sp with sizes := fun j => if j = i then none else sp.sizes j }
  | .malloc i _ => { sp with live := ⟨res, i, List.replicate ((sp.sizes i).getD 0) 0⟩ :: sp.live }
  | .free _ p _ => { sp with live := sp.live.filter (fun r => r.ptr ≠ p) }
  | .write p off bs =>
    { sp with live := sp.live.map fun r =>
        if r.ptr = p then { r with data := overwrite r.data off bs } else r }

/-- The states that a client reaches by allowed calls, with its view of them. -/
inductive Reach (dbg : Bool) : St → Sp → Prop where
  | init : Reach dbg init ⟨[], fun _ => none⟩
  | step {st st' : St} {sp : Sp} {op : Op} {res : Nat} (h : Reach dbg st sp) (hl : Legal sp op)
      (hf : Fresh st op) (hs : step dbg st op = .ok (st', res)) : Reach dbg st' (spStep sp res op)

/-- The number of blocks in use for a cookie. -/
def Sp.count (sp : Sp) (i : Nat) : Nat := (sp.live.filter (fun r => r.id = i)).length

end Verif.Cookie
