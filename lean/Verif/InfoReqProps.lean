import Verif.InfoReqLemmas
/-
The clean-up of a request to an info plugin.
-/
namespace Verif.InfoReq

/-- A request is understood as it was sent, unless it is one of three kinds of
empty ones: the memory holds the command of the request, ended by a terminator,
the length is that of the command, and headers are written when the request is
an HTTP one, unless the prefix says otherwise. -/
theorem C115_request_partial (hdr : Bool) (data old : Str) (h0 : data ≠ [])
    (h1 : ¬ BlankLine data) (h2 : ¬ BlankGet data) (h3 : ¬ OnlySlashes data) :
    ∃ r w, sanitise hdr data old = .ok r ∧ Holds r w ∧ Command hdr data r.hdr w ∧ r.len < 1024 := by
  obtain ⟨r3, a1, a2, a3, a4⟩ := head_holds hdr data old h0 h1
  have hlen := request_len data
  rw [a1]
  by_cases ht : request data = []
  · have hp : parseRequest r3 = .ok r3 := by
      unfold parseRequest
      rw [if_pos (by rw [a2.2.1, ht]; rfl)]
    rw [hp]
    obtain ⟨r', u, v, w, b1, b2, b3, b4, b5, b6⟩ :=
      tail_holds r3 (request data) a2 hlen (Or.inl ht) (Or.inl ht)
    rw [a3] at b4
    rw [ht] at b3
    exact ⟨r', w, b1, b2, Command.mk hdr [] u v (Target.empty ht) b3 b4 b5, b6⟩
  · obtain ⟨g1, g2⟩ := parse_holds r3 _ a2 ht
    by_cases hg : ∃ x, IsGet (request data) x
    · obtain ⟨x, hx⟩ := hg
      obtain ⟨r4, c1, c2, c3, b, c4, c5⟩ := g1 x hx
      rw [c1]
      have hxl := isGet_le hx
      obtain ⟨r', u, v, w, b1, b2, b3, b4, b5, b6⟩ :=
        tail_holds r4 x c2 (by omega) (Or.inr (fun h => h2 ⟨x, hx, h⟩))
          (Or.inr (Or.inr (by rw [c4]; exact emptied_slash c5)))
      rw [c3] at b4
      exact ⟨r', w, b1, b2, Command.mk true x u v (Target.get x hx) b3 b4 b5, b6⟩
    · obtain ⟨r4, c1, c2, c3, c4⟩ := g2 hg
      rw [c1]
      obtain ⟨r', u, v, w, b1, b2, b3, b4, b5, b6⟩ :=
        tail_holds r4 (request data) c2 hlen (Or.inr (by rw [request_trimmed]; exact ht)) (by
          right
          rcases preAfter_none (trimR isSpace (firstLine (data.take 1023))) with ⟨k1, k2⟩ | ⟨c, k1, k2⟩
          · left
            rw [request_trimmed]
            intro hz
            apply h3
            have hq : request data = trimR isSpace (firstLine (data.take 1023)) := k1
            rw [hq] at hz ht
            exact ⟨ht, hz⟩
          · right
            rw [c4, a4, k1]
            exact emptied_slash k2)
      rw [c3] at b4
      exact ⟨r', w, b1, b2, Command.mk false _ u v (Target.plain ht hg) b3 b4 b5, b6⟩

/-- The three kinds of empty requests: the character in front of the request is
read outside of the buffer, or the length wraps around. -/
theorem C115_empty_negation (hdr : Bool) (data old : Str) (h0 : data ≠ [])
    (h : BlankLine data ∨ BlankGet data ∨ OnlySlashes data) : sanitise hdr data old = .ub := by
  by_cases hb : BlankLine data
  · obtain ⟨r1, a1, a2, a3, a4⟩ := cut_holds data old hdr h0
    have e1023 : bufSize - 1 = 1023 := by decide
    rw [e1023] at a2
    unfold sanitise
    rw [a1]
    simp only [Out.next]
    rw [strip_blank isSpace r1 _ a2 hb.1 hb.2 (by rw [a4]; rfl)]
  · obtain ⟨r3, a1, a2, a3, a4⟩ := head_holds hdr data old h0 hb
    rw [a1]
    rcases h with h | ⟨x, hx, hxb⟩ | ⟨hs1, hs2⟩
    · exact absurd h hb
    · have ht : request data ≠ [] := by
        rintro ht
        rw [ht] at hx
        obtain ⟨g, b1, b2, v, d, e, _⟩ := hx
        cases g <;> cases e
      obtain ⟨r4, c1, c2, c3, b, c4, c5⟩ := (parse_holds r3 _ a2 ht).1 x hx
      rw [c1]
      have hx0 : x ≠ [] := by obtain ⟨g, b1, b2, v, d, e, hx0, _⟩ := hx; exact hx0
      unfold tailSteps
      simp only [Out.next]
      rw [strip_blank isSpace r4 x c2 hx0 hxb (by rw [c4]; exact emptied_space c5)]
    · have hall := slashes_head hs2
      have hpre : trimL isSpace (trimR isSpace (firstLine (data.take 1023))) =
          trimR isSpace (firstLine (data.take 1023)) ∧
          preAfter none (trimR isSpace (firstLine (data.take 1023))) = none := by
        cases hq : trimR isSpace (firstLine (data.take 1023)) with
        | nil => exact absurd hq hs1
        | cons a q =>
          have ha : ¬ isSpace a = true := by
            intro ha
            have := hall a (by rw [hq]; exact List.mem_cons_self)
            rw [space_slash ha] at this
            cases this
          unfold trimL preAfter
          rw [if_neg ha, List.dropWhile_cons, if_neg ha]
          exact ⟨rfl, rfl⟩
      have hreq : request data = trimR isSpace (firstLine (data.take 1023)) := hpre.1
      rw [hreq] at a2
      obtain ⟨r4, c1, c2, c3, c4⟩ := (parse_holds r3 _ a2 hs1).2 (fun ⟨x, hx⟩ => not_get_slashes hall hx)
      rw [c1]
      unfold tailSteps
      obtain ⟨r5, d1, d2, d3, d4⟩ := strip_holds isSpace r4 _ c2 (Or.inr (Or.inl (by rw [trimR_trimR]; exact hs1)))
      rw [trimR_trimR] at d2
      simp only [Out.next, d1]
      rw [show strip (fun c => decide (c = '/')) r5 = strip isSlash r5 from rfl,
        strip_blank isSlash r5 _ d2 hs1 hs2 (by rw [d4, c4, a4, hpre.2]; rfl)]

/-- The answer that a request is too long is never given, however long the
request is. -/
theorem C115_too_large_negation (hdr : Bool) (data old : Str) (h0 : data ≠ []) (r : Rq)
    (h : sanitise hdr data old = .ok r) : tooLarge r.len = false := by
  by_cases hc : BlankLine data ∨ BlankGet data ∨ OnlySlashes data
  · rw [C115_empty_negation hdr data old h0 hc] at h
    cases h
  · simp only [not_or] at hc
    obtain ⟨r', w, h1, _, _, h2⟩ := C115_request_partial hdr data old h0 hc.1 hc.2.1 hc.2.2
    rw [h] at h1
    cases h1
    unfold tooLarge bufSize
    exact decide_eq_false (by omega)

/-- The text held by the memory, the length and the wish for headers. -/
def shown : Out → Option (Str × Nat × Bool)
  | .ok r => some (r.mem.takeWhile (· ≠ nul), r.len, r.hdr)
  | .ub => none

/-- What a browser sends for the links, and what the same gives with the prefix
for plain text. -/
def browser : Str := "GET //links/ HTTP/1.1\r\nHost: 127.0.0.1\r\n\r\n".toList
def browserPlain : Str := "get /plain/links/routes HTTP/1.0\n".toList

example : shown (sanitise false browser []) = some ("/links".toList, 6, true) := by decide +kernel
example : shown (sanitise true browserPlain []) = some ("/links/routes".toList, 13, false) := by decide +kernel
example : shown (sanitise true "  /HTTP  \n".toList []) = some ([], 0, true) := by decide +kernel
example : shown (sanitise true "GET / HTTP/1.1\n".toList []) = some ([], 0, true) := by decide +kernel
example : shown (sanitise true " /".toList []) = some ([], 0, false) := by decide +kernel
example : shown (sanitise true "/httpx".toList []) = some ("/httpx".toList, 6, false) := by decide +kernel
example : shown (sanitise false ['\n'] []) = some ([], 0, false) := by decide +kernel

/-- The request of the browser is of none of the three kinds. -/
example : browser ≠ [] ∧ ¬ BlankLine browser ∧ ¬ BlankGet browser ∧ ¬ OnlySlashes browser := by
  have key : ∀ h : BlankLine browser ∨ BlankGet browser ∨ OnlySlashes browser, False := by
    intro h
    have h1 := C115_empty_negation false browser [] (by decide) h
    have h2 : shown (sanitise false browser []) = some ("/links".toList, 6, true) := by decide +kernel
    rw [h1] at h2
    cases h2
  exact ⟨by decide, fun h => key (Or.inl h), fun h => key (Or.inr (Or.inl h)), fun h => key (Or.inr (Or.inr h))⟩

/-- A blank, a slash, and an HTTP request for a blank. -/
example : BlankLine [' '] ∧ OnlySlashes ['/'] ∧ BlankGet "GET   HTTP/1.0".toList :=
  ⟨by unfold BlankLine; decide +kernel, by unfold OnlySlashes; decide +kernel,
   [' '], ⟨"GET".toList, ' ', ' ', "HTTP/1.".toList, '0', by decide +kernel, by decide,
     by unfold ciEq; decide +kernel, by decide, by decide, by unfold ciEq; decide +kernel, Or.inl rfl⟩, by decide⟩

/-- A request of 1500 characters is cut and answered. -/
example : (shown (sanitise false ('/' :: List.replicate 1500 'a') [])).map (·.2.1) = some 1023 := by
  decide +kernel

end Verif.InfoReq
