/-
Model of the routing information base and of its transfer to the kernel:
/repo/src/routing_table.c (`olsr_insert_rt_path`, `olsr_update_rt_path`,
`olsr_delete_rt_path`, `olsr_cmp_rtp`, `olsr_rt_best`),
/repo/src/process_routes.c (`olsr_update_rib_routes`,
`olsr_update_kernel_routes` and what they call) and the part of
/repo/src/linux/kernel_routes_nl.c:502-600 that decides which route is given to
the kernel.

Not modelled: `host_emul`, the NIIT handler, and failing kernel calls other than
the deletion of a route that is not there, which the code treats as a success
(/repo/src/linux/kernel_routes_nl.c:567-573).  `rt_best` is set by
`olsr_rt_best` and read only in the same update, so it is passed on instead of
stored.
-/
namespace Verif.Route

/-- `struct olsr_ip_prefix`. -/
structure Dst where
  addr : Nat
  len : Nat
deriving DecidableEq, Repr

/-- `struct rt_nexthop`, /repo/src/routing_table.h:70-73. -/
structure Nh where
  gw : Nat
  iif : Int
deriving DecidableEq, Repr

/-- `struct rt_metric`, /repo/src/routing_table.h:64-67. -/
structure Metric where
  cost : Nat
  hops : Nat
deriving DecidableEq, Repr

/-- `struct rt_path`: originator, next hop, metric, version. -/
structure Path where
  orig : Nat
  nh : Nh
  metric : Metric
  ver : Nat
deriving DecidableEq, Repr

/-- `struct rt_entry`: next hop and metric as given to the kernel, and the
paths. -/
structure Entry where
  nh : Nh
  metric : Metric
  paths : List Path
deriving DecidableEq, Repr

/-- `olsr_fib_metric_options`, /repo/src/olsr_cfg.h:192-197. -/
inductive Fib where
  | flat
  | correct
  | approx
deriving DecidableEq, Repr

/-- The configuration.  `custom`: some route function was replaced by a plugin;
`extra`: what is added to the metric of an internet route while the smart
gateway is active; `ll`: `ip_is_linklocal`; `nat`: the product of a cost with
`lq_nat_thresh` in floating point. -/
structure Cfg where
  fib : Fib
  v4 : Bool
  custom : Bool
  fibDefault : Nat
  maxplen : Nat
  extra : Dst → Nat
  ll : Nat → Bool
  nat : Nat → Nat

/-- What is given to the kernel. -/
inductive Op where
  | add (dst : Dst) (metric : Nat) (nh : Nh)
  | del (dst : Dst) (metric : Nat) (nh : Nh)
deriving DecidableEq, Repr

def Op.dst : Op → Dst
  | .add d _ _ => d
  | .del d _ _ => d

/-- The routing table of the kernel, keyed by destination and metric (which is
how Linux keys it), the operations so far, the RIB as a map together with the
order of its tree, `current_inetgw` and `routingtree_version`. -/
structure St where
  ent : Dst → Option Entry
  order : List Dst
  kern : Dst → Nat → Option Nh
  log : List Op
  inetgw : Option (Dst × Nat)
  ver : Nat

/-- Before the first calculation. -/
def start : St := ⟨fun _ => none, [], fun _ _ => none, [], none, 0⟩

def setEnt (f : Dst → Option Entry) (d : Dst) (e : Option Entry) : Dst → Option Entry :=
  fun x => if x = d then e else f x

def setKern (k : Dst → Nat → Option Nh) (d : Dst) (m : Nat) (v : Option Nh) : Dst → Nat → Option Nh :=
  fun x y => if x = d ∧ y = m then v else k x y

/-! ### path list to RIB -/

/-- A prefix of a reachable node with the values of that node and its next-hop
link: what /repo/src/olsr_spf.c:495-513 passes to `olsr_update_rt_path` or
`olsr_insert_rt_path`. -/
structure Ann where
  dst : Dst
  orig : Nat
  nh : Nh
  metric : Metric
deriving DecidableEq, Repr

/-- The path after `olsr_update_rt_path`, /repo/src/routing_table.c:208-223. -/
def Ann.path (a : Ann) (ver : Nat) : Path := ⟨a.orig, a.nh, a.metric, ver⟩

/-- A new entry, /repo/src/routing_table.c:228-252. -/
def fresh : Entry := ⟨⟨0, -1⟩, ⟨0, 0⟩, []⟩

/-- `olsr_update_rt_path` if the path is in the RIB, otherwise
`olsr_insert_rt_path`, /repo/src/routing_table.c:288-337.  The position of a
new element in the lists stands for the one in the trees. -/
def announce (c : Cfg) (s : St) (a : Ann) : St :=
  match s.ent a.dst with
  | some e =>
    if e.paths.any (fun p => p.orig == a.orig) then
      { s with ent := setEnt s.ent a.dst (some { e with
          paths := e.paths.map fun p => if p.orig = a.orig then a.path s.ver else p }) }
    else if 4294967295 ≤ a.metric.cost ∨ c.maxplen < a.dst.len then s
    else { s with ent := setEnt s.ent a.dst (some { e with paths := e.paths ++ [a.path s.ver] }) }
  | none =>
    if 4294967295 ≤ a.metric.cost ∨ c.maxplen < a.dst.len then s
    else { s with ent := setEnt s.ent a.dst (some { fresh with paths := [a.path s.ver] })
                  order := s.order ++ [a.dst] }

/-- `olsr_delete_rt_path`, /repo/src/routing_table.c:342-375, for the path of a
prefix from an originator. -/
def forget (s : St) (d : Dst) (orig : Nat) : St :=
  { s with
    ent := match s.ent d with
      | some e => setEnt s.ent d (some { e with paths := e.paths.filter fun p => !(p.orig == orig) })
      | none => s.ent
    inetgw := if s.inetgw = some (d, orig) then none else s.inetgw }

/-! ### best route -/

/-- The cost used in `olsr_cmp_rtp`: that of the current internet gateway is
multiplied by `lq_nat_thresh`, /repo/src/routing_table.c:450-455. -/
def adjusted (c : Cfg) (inetgw : Option (Dst × Nat)) (d : Dst) (p : Path) : Nat :=
  if inetgw = some (d, p.orig) then c.nat p.metric.cost else p.metric.cost

/-- `olsr_cmp_rtp`, /repo/src/routing_table.c:447-480. -/
def cmpRtp (c : Cfg) (inetgw : Option (Dst × Nat)) (d : Dst) (p q : Path) : Bool :=
  if adjusted c inetgw d p < adjusted c inetgw d q then true
  else if adjusted c inetgw d q < adjusted c inetgw d p then false
  else if p.metric.hops < q.metric.hops then true
  else if q.metric.hops < p.metric.hops then false
  else if p.orig < q.orig then true
  else false

/-- `olsr_rt_best`, /repo/src/routing_table.c:498-522; `none` is the failing
assertion. -/
def rtBest (c : Cfg) (inetgw : Option (Dst × Nat)) (d : Dst) : List Path → Option Path
  | [] => none
  | p :: l => some (l.foldl (fun b q => if cmpRtp c inetgw d q b then q else b) p)

/-! ### RIB to kernel -/

/-- The metric given to the kernel, /repo/src/linux/kernel_routes_nl.c:510-521. -/
def fibMetric (c : Cfg) (d : Dst) (m : Metric) : Nat :=
  (match c.fib with
    | .flat => c.fibDefault
    | _ => m.hops) + c.extra d

/-- `olsr_delete_kernel_route`, /repo/src/process_routes.c:160-187.  The kernel
deletes the route with exactly these values. -/
def deleteKernel (c : Cfg) (s : St) (d : Dst) (e : Entry) : St :=
  if 1 < e.metric.hops ∧ c.ll d.addr = true then s
  else
    { s with
      kern := if s.kern d (fibMetric c d e.metric) = some e.nh then
          setKern s.kern d (fibMetric c d e.metric) none
        else s.kern
      log := s.log ++ [.del d (fibMetric c d e.metric) e.nh] }

/-- `olsr_add_kernel_route`, /repo/src/process_routes.c:194-232; `b` is
`rt_best`. -/
def addKernel (c : Cfg) (s : St) (d : Dst) (e : Entry) (b : Path) : St :=
  if 1 < b.metric.hops ∧ c.ll d.addr = true then s
  else
    { s with
      kern := setKern s.kern d (fibMetric c d b.metric) (some b.nh)
      log := s.log ++ [.add d (fibMetric c d b.metric) b.nh]
      ent := setEnt s.ent d (some { e with nh := b.nh, metric := b.metric }) }

/-- One element of the queue in `olsr_chg_kernel_routes`,
/repo/src/process_routes.c:253-281. -/
def change (c : Cfg) (s : St) (x : Dst × Path) : St :=
  match s.ent x.1 with
  | none => s
  | some e =>
    let s1 :=
      if (c.v4 = false ∨ c.fib ≠ .flat ∨ c.custom = true) ∧ -1 < e.nh.iif then deleteKernel c s x.1 e
      else s
    addKernel c s1 x.1 e x.2

/-- The test in `olsr_update_rib_routes`, /repo/src/process_routes.c:354-356. -/
def changed (c : Cfg) (e : Entry) (b : Path) : Bool :=
  decide (b.nh ≠ e.nh) || (decide (c.fib = .correct) && decide (b.metric.hops ≠ e.metric.hops))

/-- `olsr_enqueue_rt`, /repo/src/process_routes.c:131-154. -/
def enqueue (q : List (Dst × Path)) (d : Dst) (b : Path) : List (Dst × Path) :=
  if d.addr = b.nh.gw then (d, b) :: q else q ++ [(d, b)]

/-- One entry in `olsr_update_rib_routes`, /repo/src/process_routes.c:332-362. -/
def updateOne (c : Cfg) (a : St × List (Dst × Path)) (d : Dst) : St × List (Dst × Path) :=
  match a.1.ent d with
  | none => a
  | some e =>
    let live := e.paths.filter fun p => p.ver == a.1.ver
    match rtBest c a.1.inetgw d live with
    | none =>
      let s := deleteKernel c a.1 d e
      ({ s with ent := setEnt s.ent d none, order := s.order.filter fun x => !(x == d) }, a.2)
    | some b =>
      ({ a.1 with
          ent := setEnt a.1.ent d (some { e with paths := live })
          inetgw := if d.len = 0 then some (d, b.orig) else a.1.inetgw },
       if changed c e b then enqueue a.2 d b else a.2)

/-- `olsr_update_rib_routes` followed by `olsr_update_kernel_routes`. -/
def update (c : Cfg) (s : St) : St :=
  let a := s.order.foldl (updateOne c) (s, [])
  a.2.foldl (change c) a.1

/-- A route calculation from the bump of the version on
(/repo/src/olsr_spf.c:370, 473-530): the version is a 32-bit number. -/
def round (c : Cfg) (s : St) (anns : List Ann) : St :=
  update c (anns.foldl (announce c) { s with ver := (s.ver + 1) % 4294967296 })

end Verif.Route
