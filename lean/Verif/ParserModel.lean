/-!
# Model of `parse_packet` (`src/parser.c`)

The receive buffer is a list of bytes, longer than or as long as the datagram (the rest holds data of
earlier datagrams; in `olsr_input` the buffer is `inbuf_aligned`, 1504 bytes, parser.c:83).  A read past the
end of the buffer is `none`.  Message handlers and the forwarding routine are outside this model; what they
answer may depend on everything that happened before.  Handlers do not write to the message; the forwarding
routine may rewrite its TTL and hop count bytes (olsr.c:366-376).  Not represented: the in-place byte order
change of the packet sequence number (:292), packet parser functions of plugins (:295-299), hysteresis
(:306-309), log output.
-/

namespace Verif.Parser

/-- configuration and registered functions -/
structure Cfg where
  ipsize : Nat                        -- 4 or 16
  mainAddr : List Nat                 -- olsr_cnf->main_addr
  ifAddrs : List (List Nat)           -- addresses of all own interfaces; not consulted by the code
  deny : List (List Nat)              -- deny_entries (net_olsr.c:63-77)
  fns : List (Nat × Option Nat)       -- parse_functions: identity, type (`none` = PROMISCUOUS)

/-- what the parser does to the outside -/
inductive Ev where
  /-- parse function `fn` called with the message at `off` (size field `size`), returned `ans` -/
  | call (fn off size : Nat) (ans : Bool)
  /-- `olsr_forward_message` called -/
  | forward (off size : Nat)
  /-- `olsr_test_originator_collision` called -/
  | collision (type seqno : Nat)
deriving DecidableEq

/-- the outside world: results of parse functions; does the forwarding routine rewrite TTL and hop count -/
structure Env where
  fn : List Ev → Nat → Nat → Bool
  fwd : List Ev → Nat → Bool

structure St where
  mem : List Nat
  evs : List Ev
deriving DecidableEq

/-- big-endian 16-bit field (`ntohs`) -/
def rd16 (m : List Nat) (i : Nat) : Option Nat := do
  let a ← m[i]?
  let b ← m[i + 1]?
  return a * 256 + b

/-- `n` bytes starting at `i` -/
def rdAddr (m : List Nat) (i n : Nat) : Option (List Nat) :=
  if i + n ≤ m.length then some ((m.drop i).take n) else none

/-- `olsr_validate_address` (net_olsr.c:438-453); the comparison of pointers at :449 is never true, list
entries are separately allocated -/
def validate (cfg : Cfg) (a : List Nat) : Bool := !cfg.deny.contains a

/-- the loop over the parse functions (parser.c:391-401) -/
def callFns (env : Env) (off size type : Nat) : List (Nat × Option Nat) → List Ev → Bool → List Ev × Bool
  | [], evs, fw => (evs, fw)
  | f :: fs, evs, fw =>
    if f.2 = none ∨ f.2 = some type then
      let ans := env.fn evs f.1 off
      callFns env off size type fs (evs ++ [.call f.1 off size ans]) (fw && ans)
    else callFns env off size type fs evs fw

/-- TTL and hop count as rewritten by `olsr_forward_message` (olsr.c:369-374), 8-bit fields -/
def rewrite (cfg : Cfg) (m : List Nat) (off : Nat) : List Nat :=
  let t := off + 4 + cfg.ipsize
  (m.set t (((m[t]?).getD 0 + 255) % 256)).set (t + 1) (((m[t + 1]?).getD 0 + 1) % 256)

/-- body of the loop for one message whose size has been checked (parser.c:376-405) -/
def handle (cfg : Cfg) (env : Env) (off size type seqno : Nat) (orig : List Nat) (st : St) : St :=
  if orig = cfg.mainAddr ∨ validate cfg orig = false then
    if validate cfg orig then { st with evs := st.evs ++ [.collision type seqno] } else st
  else
    let r := callFns env off size type cfg.fns st.evs true
    if r.2 then
      { mem := if env.fwd r.1 off then rewrite cfg st.mem off else st.mem, evs := r.1 ++ [.forward off size] }
    else { st with evs := r.1 }

/-- the loop over the messages (parser.c:311-406); `fuel` bounds the number of iterations -/
def loop (cfg : Cfg) (env : Env) : Nat → Nat → Nat → St → Option St
  | 0, _, _, _ => none
  | fuel + 1, off, count, st =>
    if count = 0 then some st
    else if count < 8 + cfg.ipsize then some st                                       -- :316
    else do
      let size ← rd16 st.mem (off + 2)                                                -- :320 / :324
      let seqno ← rd16 st.mem (off + 6 + cfg.ipsize)                                  -- :321 / :325
      if size < 8 + cfg.ipsize then some st                                           -- :329
      else if size % 4 ≠ 0 then some st                                               -- :341
      else if size > count then some st                                               -- :353
      else do
        let orig ← rdAddr st.mem (off + 4) cfg.ipsize                                 -- :376-377
        let type ← st.mem[off]?
        loop cfg env fuel (off + size) (count - size) (handle cfg env off size type seqno orig st)

/-- `parse_packet` (parser.c:267-407) on a datagram of `size` bytes (a positive `int`) at the start of the
buffer -/
def parsePacket (cfg : Cfg) (env : Env) (mem : List Nat) (size : Nat) : Option St :=
  let count := (size + 4294967296 - 4) % 4294967296                                   -- :277, uint32_t
  if count < 4 then some { mem, evs := [] }                                           -- :280
  else do
    let packlen ← rd16 mem 0
    if packlen ≠ size % 65536 then some { mem, evs := [] }                            -- :283
    else loop cfg env (count + 1) 4 count { mem, evs := [] }

end Verif.Parser
