/-
Model of the selection of DNS servers of the nameservice plugin: `select_best_nameserver` and
`write_resolv_file` in `lib/nameservice/src/nameservice.c`.
-/

namespace Verif.NsSel

variable {α : Type}

/-- `nameserver_routes` (nameservice.c:1321): `NAMESERVER_COUNT + 1` = 4 pointers to routes;
`none` is the null pointer. -/
structure Arr (α : Type) where
  r0 : Option α
  r1 : Option α
  r2 : Option α
  r3 : Option α
deriving DecidableEq, Repr

/-- One round of the loop of `select_best_nameserver` (nameservice.c:1285-1305) on two neighbouring
elements.  `better` is `olsr_cmp_rt`; calling it with a null pointer is undefined behaviour,
`none`.  The debug output is not modelled. -/
def swap (better : α → α → Bool) (a b : Option α) : Option (Option α × Option α) :=
  match b with
  | none => some (none, a)
  | some y =>
    match a with
    | none => none
    | some x => if better x y then some (some y, some x) else some (some x, some y)

/-- `select_best_nameserver` (nameservice.c:1277-1307): `NAMESERVER_COUNT` = 3 rounds. -/
def select (better : α → α → Bool) (s : Arr α) : Option (Arr α) :=
  match swap better s.r0 s.r1 with
  | none => none
  | some (a, b) =>
    match swap better b s.r2 with
    | none => none
    | some (b', c) =>
      match swap better c s.r3 with
      | none => none
      | some (c', d) => some ⟨a, b', c', d⟩

/-- The loop over the known DNS servers (nameservice.c:1332-1361), reduced to those that have a
route, in the order in which they are met: each is put at the head of the array. -/
def selectAll (better : α → α → Bool) : List α → Arr α → Option (Arr α)
  | [], s => some s
  | x :: l, s =>
    match select better { s with r0 := some x } with
    | none => none
    | some s' => selectAll better l s'

/-- The lines that are written (nameservice.c:1363-1390): from the last element to the first, null
pointers left out.  If the last element is null no file is written. -/
def lines (s : Arr α) : List α :=
  match s.r3 with
  | none => []
  | some d => d :: (s.r2.toList ++ s.r1.toList ++ s.r0.toList)

/-- The DNS servers that `write_resolv_file` (nameservice.c:1313-1396) writes. -/
def resolv (better : α → α → Bool) (l : List α) : Option (List α) :=
  (selectAll better l ⟨none, none, none, none⟩).map lines

end Verif.NsSel
