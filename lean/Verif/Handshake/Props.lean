import Verif.Handshake.Lemmas
import Verif.Cookies.Props
/-! Handshake properties C16, C60, C61. -/
namespace Nbdl.Handshake

/-! ## C61: the server's answer to any well-formed request -/

/-- C61: whatever the sizes in which the bytes of a well-formed upgrade request arrive, the server
takes the key and the cookies from the header fields and answers with the RFC 6455 response for that
key.  The auth token is what `get_auth_token` finds in the cookies (C17). -/
theorem server_answers (nul : Bool) (sched : Nat → Nat) (fs : List Spec.Field) (rest : List Byte)
    (h : ∀ f ∈ fs, Spec.WF f) :
    ∃ readAhead unread, readAhead ++ unread = rest ∧
      server nul sched (ascii "GET / HTTP/1.1\r\n" ++ Spec.render fs ++ rest)
        = match Cookies.getAuthToken nul (Spec.lookup (ascii "cookies") fs) with
          | .ub => .ub
          | .ok token => .ready token (Spec.response (Spec.lookup (ascii "sec-websocket-key") fs)) unread := by
  obtain ⟨b, u, h1, h2⟩ := readHeaders_fields sched fs rest h
  refine ⟨b, u, h1, ?_⟩
  have e : expectEqual requestLine (ascii "GET / HTTP/1.1\r\n" ++ Spec.render fs ++ rest)
      = .equal (Spec.render fs ++ rest) := by
    unfold expectEqual
    rw [List.append_assoc, show ascii "GET / HTTP/1.1\r\n" = requestLine from rfl,
      if_neg (by simp), List.take_left' rfl, if_pos rfl, List.drop_left' rfl]
  unfold server
  rw [e]
  simp only [h2, acceptToken_eq]
  cases hc : Cookies.getAuthToken nul (Spec.lookup (ascii "cookies") fs) with
  | ub => rfl
  | ok t =>
    simp only [Spec.response, Server.ready.injEq, true_and, and_true]
    rw [show responseStart = ascii "HTTP/1.1 101 Switching Protocols\r\n" ++ ascii "Upgrade: websocket\r\n"
      ++ ascii "Connection: Upgrade\r\n" ++ ascii "Sec-WebSocket-Accept: " by decide +kernel,
      show responseEnd = ascii "\r\n" ++ ascii "\r\n" by decide +kernel]
    simp only [List.append_assoc]

/-- A request of another client, cut in pieces of any sizes. -/
def sampleFields : List Spec.Field :=
  [⟨ascii "Host", ascii " example.com"⟩, ⟨ascii "SEC-WebSocket-Key", ascii "  abc"⟩,
   ⟨ascii "Cookies", ascii " a=1; nbdl_auth=tok"⟩]

theorem sampleFields_wf : ∀ f ∈ sampleFields, Spec.WF f := by
  intro f hf
  simp only [sampleFields, List.mem_cons, List.not_mem_nil, or_false] at hf
  rcases hf with rfl | rfl | rfl <;> exact ⟨by decide +kernel, by decide +kernel, by decide +kernel⟩

example : Spec.lookup (ascii "sec-websocket-key") sampleFields = ascii "abc"
    ∧ Spec.lookup (ascii "cookies") sampleFields = ascii "a=1; nbdl_auth=tok" := by decide +kernel

/-! ## C16 -/

/-- The fields of the client's request. -/
def clientFields (origin token : List Byte) : List Spec.Field :=
  [⟨ascii "Host", ascii " nbdl"⟩, ⟨ascii "Origin", origin⟩, ⟨ascii "Upgrade", ascii " websocket"⟩,
   ⟨ascii "Connection", ascii " Upgrade"⟩,
   ⟨ascii "Sec-WebSocket-Key", ascii " dGhlIHNhbXBsZSBub25jZQ=="⟩,
   ⟨ascii "Sec-WebSocket-Version", ascii " 13"⟩,
   ⟨ascii "Cookies", ascii " nbdl_auth=" ++ token ++ ascii ";"⟩]

theorem request_eq (origin token : List Byte) :
    request origin token = ascii "GET / HTTP/1.1\r\n" ++ Spec.render (clientFields origin token) := by
  unfold request Spec.render clientFields Spec.Field.render
  simp only [List.flatMap_cons, List.flatMap_nil, List.append_nil]
  rw [show ascii "GET / HTTP/1.1\r\nHost: nbdl\r\nOrigin:" = ascii "GET / HTTP/1.1\r\n" ++ ascii "Host" ++ ascii ":"
      ++ ascii " nbdl" ++ ascii "\r\n" ++ ascii "Origin" ++ ascii ":" by decide +kernel,
    show ascii "\r\nUpgrade: websocket\r\nConnection: Upgrade\r\nSec-WebSocket-Key: dGhlIHNhbXBsZSBub25jZQ==\r\nSec-WebSocket-Version: 13\r\nCookies: nbdl_auth="
      = ascii "\r\n" ++ ascii "Upgrade" ++ ascii ":" ++ ascii " websocket" ++ ascii "\r\n" ++ ascii "Connection" ++ ascii ":"
        ++ ascii " Upgrade" ++ ascii "\r\n" ++ ascii "Sec-WebSocket-Key" ++ ascii ":" ++ ascii " dGhlIHNhbXBsZSBub25jZQ=="
        ++ ascii "\r\n" ++ ascii "Sec-WebSocket-Version" ++ ascii ":" ++ ascii " 13" ++ ascii "\r\n"
        ++ ascii "Cookies" ++ ascii ":" ++ ascii " nbdl_auth=" by decide +kernel,
    show ascii ";\r\n\r\n" = ascii ";" ++ ascii "\r\n" ++ ascii "\r\n" by decide +kernel]
  simp only [List.append_assoc]

theorem clientFields_wf (origin token : List Byte) (ho : 10#8 ∉ origin) (ht : 10#8 ∉ token)
    (hol : origin.length ≤ 247) (htl : token.length ≤ 234) :
    ∀ f ∈ clientFields origin token, Spec.WF f := by
  intro f hf
  simp only [clientFields, List.mem_cons, List.not_mem_nil, or_false] at hf
  rcases hf with rfl | rfl | rfl | rfl | rfl | rfl | rfl
  · exact ⟨by decide +kernel, by decide +kernel, by decide +kernel⟩
  · refine ⟨show ∀ b ∈ ascii "Origin", _ by decide +kernel, fun b hb e => ho (e ▸ hb), ?_⟩
    rw [render_line]
    simp only [Spec.Field.line, List.length_append, List.length_cons]
    rw [show (ascii "Origin").length = 6 by decide +kernel, show crlf.length = 2 from rfl]; omega
  · exact ⟨by decide +kernel, by decide +kernel, by decide +kernel⟩
  · exact ⟨by decide +kernel, by decide +kernel, by decide +kernel⟩
  · exact ⟨by decide +kernel, by decide +kernel, by decide +kernel⟩
  · exact ⟨by decide +kernel, by decide +kernel, by decide +kernel⟩
  · refine ⟨show ∀ b ∈ ascii "Cookies", _ by decide +kernel, ?_, ?_⟩
    · intro b hb e
      subst e
      simp only [List.mem_append] at hb
      rcases hb with (hb | hb) | hb
      · exact absurd hb (by decide +kernel)
      · exact ht hb
      · exact absurd hb (by decide +kernel)
    · rw [render_line]
      simp only [Spec.Field.line, List.length_append, List.length_cons]
      rw [show (ascii "Cookies").length = 7 by decide +kernel, show crlf.length = 2 from rfl,
        show (ascii " nbdl_auth=").length = 11 by decide +kernel, show (ascii ";").length = 1 by decide +kernel]
      omega

theorem client_key (origin token : List Byte) :
    Spec.lookup (ascii "sec-websocket-key") (clientFields origin token) = ascii "dGhlIHNhbXBsZSBub25jZQ==" := by
  simp only [Spec.lookup, clientFields, List.reverse_cons, List.reverse_nil, List.nil_append,
    List.cons_append, List.find?_cons]
  rw [show decide ((ascii "Cookies").map Spec.lower = ascii "sec-websocket-key") = false by decide +kernel,
    show decide ((ascii "Sec-WebSocket-Version").map Spec.lower = ascii "sec-websocket-key") = false by decide +kernel,
    show decide ((ascii "Sec-WebSocket-Key").map Spec.lower = ascii "sec-websocket-key") = true by decide +kernel]
  show (ascii " dGhlIHNhbXBsZSBub25jZQ==").dropWhile _ = _
  decide

theorem client_cookies (origin token : List Byte) :
    Spec.lookup (ascii "cookies") (clientFields origin token) = ascii "nbdl_auth=" ++ token ++ ascii ";" := by
  simp only [Spec.lookup, clientFields, List.reverse_cons, List.reverse_nil, List.nil_append,
    List.cons_append, List.find?_cons]
  rw [show decide ((ascii "Cookies").map Spec.lower = ascii "cookies") = true by decide +kernel]
  simp only
  rw [show ascii " nbdl_auth=" = 32#8 :: ascii "nbdl_auth=" by decide +kernel, List.cons_append, List.cons_append,
    List.dropWhile_cons, if_pos (by decide +kernel)]
  rw [show ascii "nbdl_auth=" = 110#8 :: ascii "bdl_auth=" by decide +kernel, List.cons_append, List.cons_append,
    List.dropWhile_cons, if_neg (by decide +kernel)]

theorem client_token (nul : Bool) (token : List Byte) (h : 59#8 ∉ token) :
    Cookies.getAuthToken nul (ascii "nbdl_auth=" ++ token ++ ascii ";") = .ok token := by
  have hs : ascii ";" = [Cookies.semi] := by decide +kernel
  unfold Cookies.getAuthToken
  have hc : Cookies.checkAuthCookie (ascii "nbdl_auth=" ++ token ++ ascii ";") = token ++ [Cookies.semi] := by
    unfold Cookies.checkAuthCookie Cookies.authPrefix
    rw [if_pos (by rw [List.isPrefixOf_iff_prefix, List.append_assoc]; exact List.prefix_append _ _),
      List.append_assoc, List.drop_left' rfl, hs]
  rw [Cookies.authLoop_cons _ _ (by rw [List.append_assoc]; exact List.append_ne_nil_of_left_ne_nil (by decide +kernel) _), hc]
  cases token with
  | nil => simp
  | cons x t =>
    simp only [List.cons_append]
    rw [if_neg (by rintro rfl; exact h (by simp [Cookies.semi]))]
    rw [← List.cons_append, Cookies.takeCookieValue,
      Cookies.takeWhile_stop _ _ (fun b hb e => h (by rw [e] at hb; exact hb)) (.inr rfl)]

/-- The response to the client's key is the one the client expects. -/
theorem response_expected : Spec.response (ascii "dGhlIHNhbXBsZSBub25jZQ==") = expectedResponse := by
  have h1 : acceptToken (ascii "dGhlIHNhbXBsZSBub25jZQ==") = .ok (ascii "s3pPLMBiTxaQ9kYGzzhZRbK+xOo=") := by
    unfold acceptToken
    have := Sha1.chunk_independent [ascii "dGhlIHNhbXBsZSBub25jZQ==", guid]
    simp only [Sha1.digestOf, List.foldl_cons, List.foldl_nil, List.flatten_cons, List.flatten_nil,
      List.append_nil] at this
    rw [this, Sha1.update_init, Sha1.absorb, if_pos (by decide +kernel)]
    decide +kernel
  rw [acceptToken_eq] at h1
  have h2 : Spec.accept (ascii "dGhlIHNhbXBsZSBub25jZQ==") = ascii "s3pPLMBiTxaQ9kYGzzhZRbK+xOo=" := by
    injection h1
  unfold Spec.response
  rw [h2]
  decide +kernel

/-- C16: for every origin and token without line feeds (and `;` in the token) that fit the 256-byte
header limit, and however the request is cut up on the way, the server becomes ready with exactly
the client's token and sends a response with which the client becomes ready. -/
theorem handshake_agrees (nul : Bool) (sched : Nat → Nat) (origin token : List Byte)
    (ho : 10#8 ∉ origin) (ht : 10#8 ∉ token) (hsemi : 59#8 ∉ token)
    (hol : origin.length ≤ 247) (htl : token.length ≤ 234) :
    ∃ response, server nul sched (request origin token) = .ready token response []
      ∧ ∀ more, client (response ++ more) = .equal more := by
  obtain ⟨b, u, h1, h2⟩ := server_answers nul sched (clientFields origin token) []
    (clientFields_wf origin token ho ht hol htl)
  have hu : u = [] := (List.append_eq_nil_iff.1 h1).2
  subst hu
  rw [List.append_nil, ← request_eq, client_cookies, client_token nul token hsemi, client_key,
    response_expected] at h2
  refine ⟨expectedResponse, h2, fun more => ?_⟩
  unfold client expectEqual
  rw [if_neg (by simp), List.take_left' rfl, if_pos rfl, List.drop_left' rfl]

/-- Hypotheses met by a real-looking origin and token. -/
example : ∃ response, server false (fun i => i % 7) (request (ascii "http://localhost:8080") (ascii "tok en=1"))
    = .ready (ascii "tok en=1") response [] := by
  obtain ⟨r, h, -⟩ := handshake_agrees false (fun i => i % 7) (ascii "http://localhost:8080") (ascii "tok en=1")
    (by decide +kernel) (by decide +kernel) (by decide +kernel) (by decide +kernel) (by decide +kernel)
  exact ⟨r, h⟩

/-- The bounds are sharp: with one more byte in the origin the server always reports an error. -/
theorem long_origin_rejected (nul : Bool) (sched : Nat → Nat) (origin token : List Byte)
    (ho : 10#8 ∉ origin) (hol : 248 ≤ origin.length) :
    server nul sched (request origin token) = .error := by
  have hw : Spec.WF ⟨ascii "Host", ascii " nbdl"⟩ := ⟨by decide +kernel, by decide +kernel, by decide +kernel⟩
  have e : expectEqual requestLine (request origin token) = .equal (Spec.render (clientFields origin token)) := by
    unfold expectEqual
    rw [request_eq, show ascii "GET / HTTP/1.1\r\n" = requestLine from rfl,
      if_neg (by simp), List.take_left' rfl, if_pos rfl, List.drop_left' rfl]
  have hr : Spec.render (clientFields origin token)
      = ascii "Host: nbdl" ++ crlf ++ ((ascii "Origin:" ++ origin) ++ crlf ++ Spec.render ((clientFields origin token).drop 2)) := by
    simp only [Spec.render, clientFields, List.flatMap_cons, List.drop_succ_cons, List.drop_zero, render_line,
      Spec.Field.line]
    rw [show ascii "Host: nbdl" = ascii "Host" ++ colon :: ascii " nbdl" by decide +kernel,
      show ascii "Origin:" = ascii "Origin" ++ [colon] by decide +kernel]
    simp only [List.append_assoc, List.cons_append, List.nil_append]
  obtain ⟨j, b, s, h1, h2, h3⟩ := readLine_line sched 0 [] (Spec.render (clientFields origin token))
    (ascii "Host: nbdl") _ (by decide +kernel) (by decide +kernel) (by simp) hr
  have hnone : ∀ k ≤ maxBuf, findCrlf ((b ++ s).take k) = none := by
    intro k hk
    refine findCrlf_none _ ?_
    rw [h2]
    have hl : k ≤ (ascii "Origin:" ++ origin ++ [cr]).length := by
      rw [List.length_append, List.length_append, show (ascii "Origin:").length = 7 by decide +kernel]
      simp only [List.length_cons, List.length_nil]
      unfold maxBuf at hk; omega
    rw [show ascii "Origin:" ++ origin ++ crlf = ascii "Origin:" ++ origin ++ [cr] ++ [lf] by simp [crlf],
      List.append_assoc _ [lf], List.take_append_of_le_length hl]
    intro hm
    have := List.mem_of_mem_take hm
    simp only [List.mem_append, List.mem_singleton] at this
    rcases this with (hm | hm) | hm
    · exact absurd hm (by decide +kernel)
    · exact ho hm
    · exact absurd hm (by decide +kernel)
  have hlen : maxBuf ≤ (b ++ s).length := by
    rw [h2]; simp only [List.length_append]
    rw [show (ascii "Origin:").length = 7 by decide +kernel, show crlf.length = 2 from rfl]
    unfold maxBuf; omega
  have hp : ∃ i', parseHeader {} (ascii "Host: nbdl") = .ok i' := ⟨_, parseHeader_field {} _ hw⟩
  obtain ⟨i', hp⟩ := hp
  have hh : readHeaders sched {} 0 [] (Spec.render (clientFields origin token)) = .notFound := by
    rw [readHeaders]
    split <;> rename_i heq <;> rw [h1] at heq <;> cases heq
    rw [if_neg (by decide +kernel), hp]
    simp only
    rw [readHeaders, ]
    split <;> rename_i heq <;> rw [readLine_long sched j b s h3 hlen (hnone _ (Nat.le_refl _)) hnone] at heq <;> cases heq
  unfold server
  rw [e]
  simp only [hh]

example : 10#8 ∉ List.replicate 248 97#8 ∧ 248 ≤ (List.replicate 248 97#8).length := by
  refine ⟨fun h => ?_, by rw [List.length_replicate]; exact Nat.le_refl _⟩
  exact absurd (List.eq_of_mem_replicate h) (by decide +kernel)

/-- Any other request line is a bad request. -/
theorem wrong_request_line (nul : Bool) (sched : Nat → Nat) (stream : List Byte) (hl : 16 ≤ stream.length)
    (h : stream.take 16 ≠ ascii "GET / HTTP/1.1\r\n") : server nul sched stream = .badRequest := by
  have e : expectEqual requestLine stream = .badRequest := by
    unfold expectEqual
    rw [show requestLine.length = 16 by decide +kernel, if_neg (by omega),
      if_neg (show stream.take 16 ≠ requestLine from h)]
  unfold server; rw [e]

example : 16 ≤ (ascii "GET /x HTTP/1.1\r\n").length
    ∧ (ascii "GET /x HTTP/1.1\r\n").take 16 ≠ ascii "GET / HTTP/1.1\r\n" := by decide +kernel

/-- The client accepts only the exact response. -/
theorem client_accepts_iff (stream more : List Byte) :
    client stream = .equal more ↔ stream = Spec.response (ascii "dGhlIHNhbXBsZSBub25jZQ==") ++ more := by
  rw [response_expected]
  generalize hE : expectedResponse = E
  unfold client
  rw [hE]
  unfold expectEqual
  constructor
  · intro h
    split at h
    · cases h
    · split at h
      · rename_i h2
        cases h
        have := List.take_append_drop E.length stream
        rw [h2] at this; exact this.symm
      · cases h
  · rintro rfl
    rw [if_neg (by simp), List.take_left' rfl, if_pos rfl, List.drop_left' rfl]

/-! ## C60: no data is lost behind the handshake -/

/-- C60 on the client: everything behind the response stays in the socket. -/
theorem client_keeps_data (more : List Byte) :
    client (Spec.response (ascii "dGhlIHNhbXBsZSBub25jZQ==") ++ more) = .equal more :=
  (client_accepts_iff _ _).2 rfl

theorem readLine_nostream (sched : Nat → Nat) (i j : Nat) (buf l b s : List Byte)
    (h : readLine sched i buf [] = .line l b j s) : s = [] := by
  rw [readLine] at h
  split at h
  · cases h; rfl
  · split at h
    · cases h
    · rw [dif_pos rfl] at h; cases h

theorem readHeaders_nostream (sched : Nat → Nat) (info info' : Info) (i : Nat) (buf b s : List Byte)
    (h : readHeaders sched info i buf [] = .done info' b s) : s = [] := by
  induction hn : buf.length using Nat.strongRecOn generalizing info i buf with
  | ind n ih =>
    rw [readHeaders] at h
    split at h
    · cases h
    · cases h
    · rename_i l b1 j s1 heq
      have hs := readLine_nostream _ _ _ _ _ _ _ heq
      have hlen := readLine_length _ _ _ _ _ _ _ _ heq
      subst hs
      split at h
      · cases h; rfl
      · split at h
        · cases h
        · simp only [List.length_nil] at hlen
          exact ih _ (by omega) _ _ _ h rfl

/-- C60 fails on the server: data that arrives together with the end of the request is read into the
header buffer and dropped.  Nothing of it is left in the socket. -/
theorem server_drops_data_violated (nul : Bool) (data : List Byte) (hd : data.length ≤ 90) :
    ∃ sched response, server nul sched (request (ascii "o") (ascii "t") ++ data)
      = .ready (ascii "t") response [] := by
  have hwf := clientFields_wf (ascii "o") (ascii "t") (by decide +kernel) (by decide +kernel) (by decide +kernel) (by decide +kernel)
  obtain ⟨b, u, h1, h2⟩ := readHeaders_fields (fun _ => 256) (clientFields (ascii "o") (ascii "t")) data hwf
  have hlen : (Spec.render (clientFields (ascii "o") (ascii "t"))).length = 160 := by decide +kernel
  have hu : u = [] := by
    have hne : Spec.render (clientFields (ascii "o") (ascii "t")) ++ data ≠ [] := by
      intro e; have := congrArg List.length e; simp only [List.length_append, hlen, List.length_nil] at this; omega
    have hch : chunk (fun _ => 256) 0 ([] : List Byte).length
        (Spec.render (clientFields (ascii "o") (ascii "t")) ++ data).length
        = (Spec.render (clientFields (ascii "o") (ascii "t")) ++ data).length := by
      simp only [chunk, maxBuf, List.length_append, hlen, List.length_nil]; omega
    have hline : readLine (fun _ => 256) 0 [] (Spec.render (clientFields (ascii "o") (ascii "t")) ++ data)
        = readLine (fun _ => 256) 1 (Spec.render (clientFields (ascii "o") (ascii "t")) ++ data) [] := by
      rw [readLine, show findCrlf [] = none from rfl]
      simp only
      rw [if_neg (by decide +kernel), dif_neg hne, hch, List.take_length, List.drop_length, List.nil_append]
    have hstep : ∀ i b s, readHeaders (fun _ => 256) {} i b s
        = match readLine (fun _ => 256) i b s with
          | .notFound => .notFound
          | .waiting => .waiting
          | .line l buf' j stream' =>
            if l = [] then .done {} (crlf ++ buf') stream'
            else match parseHeader {} l with
              | .ub => .ub
              | .ok info' => readHeaders (fun _ => 256) info' j buf' stream' := by
      intro i b s
      rw [readHeaders]
      split <;> rename_i heq <;> rw [heq] <;> rfl
    refine readHeaders_nostream (fun _ => 256) {} _ 1
      (Spec.render (clientFields (ascii "o") (ascii "t")) ++ data) _ u (Eq.trans ?_ h2)
    rw [hstep 0, hstep 1, hline]
  subst hu
  obtain ⟨b', u', h3, h4⟩ := server_answers nul (fun _ => 256) (clientFields (ascii "o") (ascii "t")) data hwf
  refine ⟨fun _ => 256, expectedResponse, ?_⟩
  have e : expectEqual requestLine (request (ascii "o") (ascii "t") ++ data)
      = .equal (Spec.render (clientFields (ascii "o") (ascii "t")) ++ data) := by
    unfold expectEqual
    rw [request_eq, List.append_assoc, show ascii "GET / HTTP/1.1\r\n" = requestLine from rfl,
      if_neg (by simp), List.take_left' rfl, if_pos rfl, List.drop_left' rfl]
  have hr := response_expected
  unfold server
  rw [e]
  simp only [h2, acceptToken_eq]
  rw [client_cookies, client_token nul _ (by decide +kernel), client_key]
  simp only [Server.ready.injEq, true_and, and_true]
  rw [← hr]
  unfold Spec.response
  rw [show responseStart = ascii "HTTP/1.1 101 Switching Protocols\r\n" ++ ascii "Upgrade: websocket\r\n"
    ++ ascii "Connection: Upgrade\r\n" ++ ascii "Sec-WebSocket-Accept: " by decide +kernel,
    show responseEnd = ascii "\r\n" ++ ascii "\r\n" by decide +kernel]
  simp only [List.append_assoc]

example : (ascii "first frame").length ≤ 90 := by decide +kernel

/-! ## C62: robustness of the request parser -/

theorem lowerAll_ub_iff (l : List Byte) : lowerAll l = .ub ↔ ∃ b ∈ l, 128 ≤ b.toNat := by
  induction l with
  | nil => simp [lowerAll]
  | cons b l ih =>
    by_cases hb : 128 ≤ b.toNat
    · simp only [lowerAll, toLower, if_pos hb, Cpp.bind, true_iff]
      exact ⟨b, by simp, hb⟩
    · have : ∃ c, toLower b = .ok c := by
        unfold toLower; rw [if_neg hb]; split <;> exact ⟨_, rfl⟩
      obtain ⟨c, hc⟩ := this
      rw [lowerAll, hc]
      simp only [Cpp.bind]
      cases hl : lowerAll l with
      | ub => rw [hl] at ih; obtain ⟨d, hd, h⟩ := ih.1 rfl; simp only [Cpp.map, true_iff]; exact ⟨d, by simp [hd], h⟩
      | ok r =>
        rw [hl] at ih
        simp only [Cpp.map, reduceCtorEq, false_iff]
        rintro ⟨d, hd, h⟩
        rcases List.mem_cons.1 hd with rfl | hd
        · exact hb h
        · exact absurd (ih.2 ⟨d, hd, h⟩) (by simp)

theorem dropWhile_nil_iff (p : Byte → Bool) (l : List Byte) :
    l.dropWhile p = [] ↔ ∀ b ∈ l, p b = true := by
  induction l with
  | nil => simp
  | cons b l ih => by_cases h : p b = true <;> simp [List.dropWhile_cons, h, ih]

theorem takeWhile_all (p : Byte → Bool) (l : List Byte) (h : ∀ b ∈ l, p b = true) : l.takeWhile p = l := by
  induction l with
  | nil => rfl
  | cons b l ih => rw [List.takeWhile_cons, if_pos (h b (by simp)), ih (fun c hc => h c (by simp [hc]))]

/-- C62, exactly: parsing a header line is undefined only if its name has a byte from 0x80 on, or it
has no `:` and is one of the two names looked for (in any case). -/
theorem header_ub_iff (info : Info) (line : List Byte) :
    parseHeader info line = .ub ↔
      (∃ b ∈ line.takeWhile (· != 58#8), 128 ≤ b.toNat)
      ∨ (58#8 ∉ line ∧ (line.map Spec.lower = ascii "cookies" ∨ line.map Spec.lower = ascii "sec-websocket-key")) := by
  by_cases hhi : ∃ b ∈ line.takeWhile (· != 58#8), 128 ≤ b.toNat
  · refine ⟨fun _ => .inl hhi, fun _ => ?_⟩
    unfold parseHeader
    rw [(lowerAll_ub_iff (line.takeWhile (· != colon))).2 hhi]; rfl
  · have hlo : ∀ b ∈ line.takeWhile (· != colon), b.toNat < 128 := by
      intro b hb
      exact Nat.lt_of_not_le fun h => hhi ⟨b, hb, h⟩
    rw [or_iff_right hhi]
    unfold parseHeader
    simp only [lowerAll_ok _ hlo, Cpp.bind]
    by_cases hc : 58#8 ∈ line
    · have hd : ∃ x r, line.dropWhile (· != colon) = x :: r := by
        cases h : line.dropWhile (· != colon) with
        | cons x r => exact ⟨x, r, rfl⟩
        | nil =>
          have := (dropWhile_nil_iff _ _).1 h _ hc
          exact absurd this (by decide +kernel)
      obtain ⟨x, r, hd⟩ := hd
      rw [hd]
      simp only [fieldValue, Cpp.map, hc, not_true, false_and, iff_false]
      split
      · simp
      · split <;> simp
    · have hno : ∀ b ∈ line, (b != colon) = true := by
        intro b hb; simp only [bne_iff_ne, ne_eq]; rintro rfl; exact hc hb
      have ht : line.takeWhile (· != colon) = line := takeWhile_all _ _ hno
      have hd : line.dropWhile (· != colon) = [] := (dropWhile_nil_iff _ _).2 hno
      simp only [ht, hd, fieldValue, Cpp.map, hc, not_false_iff, true_and]
      by_cases h1 : line.map Spec.lower = ascii "sec-websocket-key"
      · simp [h1]
      · by_cases h2 : line.map Spec.lower = ascii "cookies" <;> simp [h1, h2]

/-- C62 fails: such lines exist. -/
theorem header_ub_violated (info : Info) :
    parseHeader info (ascii "cookies") = .ub ∧ parseHeader info (ascii "Sec-WebSocket-Key") = .ub
    ∧ parseHeader info [200#8, 58#8] = .ub :=
  ⟨(header_ub_iff _ _).2 (by decide +kernel), (header_ub_iff _ _).2 (by decide +kernel),
   (header_ub_iff _ _).2 (by decide +kernel)⟩

end Nbdl.Handshake
