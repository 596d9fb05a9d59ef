import Verif.Handshake.Props
/-! C60: exactly how much of what is sent behind the request the server may lose. -/
namespace Nbdl.Handshake

/-! ## At most 254 bytes -/

theorem readLine_fits (sched : Nat → Nat) (i : Nat) (buf stream l b s : List Byte) (j : Nat)
    (hb : buf.length ≤ maxBuf) (h : readLine sched i buf stream = .line l b j s) :
    l.length + 2 + b.length ≤ maxBuf := by
  induction hn : stream.length using Nat.strongRecOn generalizing i buf stream with
  | ind n ih =>
    rw [readLine] at h
    split at h
    · rename_i k hk
      have := findCrlf_lt _ _ hk
      simp only [Line.line.injEq] at h
      obtain ⟨rfl, rfl, -, rfl⟩ := h
      simp only [List.length_take, List.length_drop]; omega
    · split at h
      · simp at h
      · rename_i hlt
        split at h
        · simp at h
        · rename_i hs
          have hc := chunk_bounds sched i buf.length stream.length (by omega)
          have h2 := List.length_pos_iff.2 hs
          refine ih _ (by rw [List.length_drop]; omega) _ _ _ ?_ h rfl
          simp only [List.length_append, List.length_take]
          omega

theorem readHeaders_fits (sched : Nat → Nat) (info : Info) (i : Nat) (buf stream : List Byte) (info' : Info)
    (b s : List Byte) (hb : buf.length ≤ maxBuf) (h : readHeaders sched info i buf stream = .done info' b s) :
    b.length ≤ maxBuf := by
  induction hn : buf.length + stream.length using Nat.strongRecOn generalizing info i buf stream with
  | ind n ih =>
    rw [readHeaders] at h
    split at h
    · cases h
    · cases h
    · rename_i l buf' j stream' hl
      have hf := readLine_fits _ _ _ _ _ _ _ _ hb hl
      have hlen := readLine_length _ _ _ _ _ _ _ _ hl
      split at h
      · cases h
        simp only [crlf, List.length_append, List.length_cons, List.length_nil]
        omega
      · split at h
        · cases h
        · exact ih _ (by omega) _ _ _ _ (by omega) h rfl

/-! ## Any number of bytes up to that -/

/-- When each read brings one byte, nothing is read ahead. -/
theorem readLine_slow (sched : Nat → Nat) (r : List Byte) : ∀ (p : List Byte) (i : Nat) (buf : List Byte), lf ∉ buf ++ p →
    (buf ++ p).length + 2 ≤ maxBuf → (∀ j, i ≤ j → j < i + p.length + 2 → sched j ≤ 1) →
    readLine sched i buf (p ++ crlf ++ r) = .line (buf ++ p) [] (i + p.length + 2) r := by
  intro p
  have one : ∀ (i b s : Nat), sched i ≤ 1 → chunk sched i b s = 1 := by
    intro i b s h; unfold chunk; omega
  induction p with
  | nil =>
    intro i buf hlf hsz hs
    simp only [List.append_nil, List.length_nil, Nat.add_zero] at *
    have h1 : readLine sched i buf ([] ++ crlf ++ r) = readLine sched (i + 1) (buf ++ [cr]) (lf :: r) := by
      rw [readLine, findCrlf_none _ hlf]
      simp only [show ¬ maxBuf ≤ buf.length by omega, if_false]
      rw [one i _ _ (hs i (by omega) (by omega))]
      rfl
    have h2 : readLine sched (i + 1) (buf ++ [cr]) (lf :: r) = readLine sched (i + 2) (buf ++ crlf) r := by
      rw [readLine, findCrlf_none _ (by simp only [List.mem_append, List.mem_singleton, not_or]; exact ⟨hlf, by decide⟩)]
      simp only [List.length_append, List.length_singleton, show ¬ maxBuf ≤ buf.length + 1 by omega, if_false]
      rw [one (i + 1) _ _ (hs (i + 1) (by omega) (by omega))]
      simp only [List.append_assoc]
      rfl
    have h3 : readLine sched (i + 2) (buf ++ crlf) r = .line buf [] (i + 2) r := by
      rw [readLine]
      have := findCrlf_line buf [] hlf
      rw [List.append_nil] at this
      rw [this]
      simp only [Line.line.injEq, and_true, true_and]
      exact ⟨List.take_left' rfl, by
        apply List.drop_eq_nil_of_le
        simp [crlf]⟩
    rw [h1, h2, h3]
  | cons a p ih =>
    intro i buf hlf hsz hs
    have h1 : readLine sched i buf ((a :: p) ++ crlf ++ r) = readLine sched (i + 1) (buf ++ [a]) (p ++ crlf ++ r) := by
      rw [readLine, findCrlf_none _ (fun h => hlf (List.mem_append_left _ h))]
      simp only [List.length_append, List.length_cons] at hsz
      simp only [show ¬ maxBuf ≤ buf.length by omega, if_false]
      rw [one i _ _ (hs i (by omega) (by simp only [List.length_cons]; omega))]
      rfl
    rw [h1, ih (i + 1) (buf ++ [a]) (by simpa using hlf) (by simpa using hsz)
      (fun j hj hj2 => hs j (by omega) (by simp only [List.length_cons]; omega))]
    simp only [List.append_assoc, List.singleton_append, List.length_cons, Line.line.injEq, true_and, and_true]
    omega

/-- The last read brings the end of the request and `d` bytes more. -/
theorem readLine_last (sched : Nat → Nat) (rest : List Byte) (i d : Nat) (hd : d ≤ 254) (hr : d ≤ rest.length)
    (h0 : sched i ≤ 1) (h1 : sched (i + 1) = 1 + d) :
    readLine sched i [] (crlf ++ rest) = .line [] (rest.take d) (i + 2) (rest.drop d) := by
  have c0 : chunk sched i 0 (crlf ++ rest).length = 1 := by unfold chunk; omega
  have c1 : chunk sched (i + 1) 1 (lf :: rest).length = 1 + d := by
    unfold chunk maxBuf
    rw [h1, List.length_cons]
    omega
  have e1 : readLine sched i [] (crlf ++ rest) = readLine sched (i + 1) [cr] (lf :: rest) := by
    rw [readLine]
    simp only [findCrlf, List.length_nil, show ¬ maxBuf ≤ 0 by decide, if_false]
    rw [c0]
    rfl
  have e2 : readLine sched (i + 1) [cr] (lf :: rest) = readLine sched (i + 2) (cr :: lf :: rest.take d) (rest.drop d) := by
    rw [readLine]
    simp only [findCrlf, List.length_singleton, show ¬ maxBuf ≤ 1 by decide, if_false]
    rw [c1, Nat.add_comm 1 d]
    rfl
  rw [e1, e2, readLine]
  simp [findCrlf]

/-- The sizes of reads: one byte each, and at the end of the request `d` more. -/
def lateBy (n d : Nat) (i : Nat) : Nat := if i + 1 < n then 1 else 1 + d

theorem readHeaders_late (n d : Nat) (hd : d ≤ 254) (rest : List Byte) (hr : d ≤ rest.length) :
    ∀ (lines : List (List Byte)) (info : Info) (i : Nat),
    (∀ l ∈ lines, lf ∉ l ∧ l ≠ [] ∧ l.length + 2 ≤ maxBuf) →
    i + (lines.flatMap (· ++ crlf) ++ crlf).length = n →
    readHeaders (lateBy n d) info i [] (lines.flatMap (· ++ crlf) ++ crlf ++ rest) = match parseAll info lines with
      | .ub => .ub
      | .ok info' => .done info' (crlf ++ rest.take d) (rest.drop d) := by
  intro lines
  induction lines with
  | nil =>
    intro info i _ hn
    simp only [List.flatMap_nil, List.nil_append, crlf, List.length_cons, List.length_nil] at hn
    have h1 := readLine_last (lateBy n d) rest i d hd hr (by unfold lateBy; rw [if_pos (by omega)]; exact Nat.le_refl _)
      (by unfold lateBy; rw [if_neg (by omega)])
    rw [List.flatMap_nil, List.nil_append, readHeaders]
    split <;> rename_i heq <;> rw [h1] at heq <;> cases heq
    simp [parseAll]
  | cons l ls ih =>
    intro info i hl hn
    have hl1 := hl l List.mem_cons_self
    have e : (l :: ls).flatMap (· ++ crlf) ++ crlf ++ rest = l ++ crlf ++ (ls.flatMap (· ++ crlf) ++ crlf ++ rest) := by
      simp
    have hlen : ((l :: ls).flatMap (· ++ crlf) ++ crlf).length = l.length + 2 + (ls.flatMap (· ++ crlf) ++ crlf).length := by
      simp only [List.flatMap_cons, List.append_assoc, List.length_append, crlf, List.length_cons, List.length_nil]
      omega
    have h2 : 2 ≤ (ls.flatMap (· ++ crlf) ++ crlf).length := by
      simp only [crlf, List.length_append, List.length_cons, List.length_nil]
      omega
    have h1 := readLine_slow (lateBy n d) (ls.flatMap (· ++ crlf) ++ crlf ++ rest) l i [] hl1.1 hl1.2.2
      (fun j hj hj2 => by unfold lateBy; rw [if_pos (by omega)]; exact Nat.le_refl _)
    have k := fun info' => ih info' (i + l.length + 2) (fun x hx => hl x (List.mem_cons_of_mem _ hx)) (by omega)
    rw [List.nil_append] at h1
    rw [e, readHeaders]
    split <;> rename_i heq <;> rw [h1] at heq <;> cases heq
    cases hp : parseHeader info l with
    | ub => simp only [parseAll, hp, Cpp.bind, if_neg hl1.2.1]
    | ok info1 =>
      simp only [if_neg hl1.2.1, parseAll, hp, Cpp.bind]
      exact k info1

/-- C60 on the server, exactly: of what is sent behind a well-formed request the server loses the first bytes, at most 254
of them, and which number it is, from none to 254, depends on nothing but the sizes in which the bytes arrive. -/
theorem server_drops_exact (nul : Bool) (fs : List Spec.Field) (rest token unread : List Byte) (h : ∀ f ∈ fs, Spec.WF f)
    (ht : Cookies.getAuthToken nul (Spec.lookup (ascii "cookies") fs) = .ok token) :
    (∃ sched, server nul sched (ascii "GET / HTTP/1.1\r\n" ++ Spec.render fs ++ rest) =
      .ready token (Spec.response (Spec.lookup (ascii "sec-websocket-key") fs)) unread) ↔
    ∃ d, d ≤ 254 ∧ d ≤ rest.length ∧ unread = rest.drop d := by
  have eq : expectEqual requestLine (ascii "GET / HTTP/1.1\r\n" ++ Spec.render fs ++ rest)
      = .equal (Spec.render fs ++ rest) := by
    unfold expectEqual
    rw [List.append_assoc, show ascii "GET / HTTP/1.1\r\n" = requestLine from rfl,
      if_neg (by simp), List.take_left' rfl, if_pos rfl, List.drop_left' rfl]
  have er : Spec.render fs = (fs.map Spec.Field.line).flatMap (· ++ crlf) ++ crlf := by
    unfold Spec.render
    rw [List.flatMap_map, show ascii "\r\n" = crlf by decide]
    congr 2
    funext f; exact render_line f
  have srv : ∀ (sched : Nat → Nat) (b u : List Byte),
      readHeaders sched {} 0 [] (Spec.render fs ++ rest) =
        .done { websocketKey := Spec.lookup (ascii "sec-websocket-key") fs,
                cookies := Spec.lookup (ascii "cookies") fs } b u →
      server nul sched (ascii "GET / HTTP/1.1\r\n" ++ Spec.render fs ++ rest) =
        .ready token (Spec.response (Spec.lookup (ascii "sec-websocket-key") fs)) u := by
    intro sched b u e
    unfold server
    rw [eq]
    simp only [e, acceptToken_eq, ht]
    simp only [Spec.response, Server.ready.injEq, true_and, and_true]
    rw [show responseStart = ascii "HTTP/1.1 101 Switching Protocols\r\n" ++ ascii "Upgrade: websocket\r\n"
      ++ ascii "Connection: Upgrade\r\n" ++ ascii "Sec-WebSocket-Accept: " by decide +kernel,
      show responseEnd = ascii "\r\n" ++ ascii "\r\n" by decide +kernel]
    simp only [List.append_assoc]
  constructor
  · rintro ⟨sched, hs⟩
    obtain ⟨b, u, h1, h2⟩ := readHeaders_fields sched fs rest h
    rw [srv sched _ u h2] at hs
    have hf := readHeaders_fits _ _ _ _ _ _ _ _ (by simp) h2
    simp only [crlf, List.length_append, List.length_cons, List.length_nil, maxBuf] at hf
    cases hs
    refine ⟨b.length, by omega, ?_, ?_⟩
    · rw [← h1, List.length_append]; omega
    · rw [← h1, List.drop_left' rfl]
  · rintro ⟨d, hd, hr, rfl⟩
    have hw : ∀ l ∈ fs.map Spec.Field.line, lf ∉ l ∧ l ≠ [] ∧ l.length + 2 ≤ maxBuf := by
      intro l hl
      obtain ⟨f, hf, rfl⟩ := List.mem_map.1 hl
      obtain ⟨w1, w2, w3⟩ := h f hf
      refine ⟨?_, ?_, ?_⟩
      · simp only [Spec.Field.line, List.mem_append, List.mem_cons, not_or]
        exact ⟨fun hm => (w1 _ hm).2.2 rfl, by decide, fun hm => w2 _ hm rfl⟩
      · simp [Spec.Field.line]
      · rw [render_line, List.length_append] at w3
        exact w3
    have k := readHeaders_late _ d hd rest hr (fs.map Spec.Field.line) {} 0 hw rfl
    rw [parseAll_fields fs {} h, foldl_stepField, ← er] at k
    exact ⟨_, srv _ _ _ k⟩

/-- 300 bytes behind a request: between 46 and all of them are left. -/
example : (∀ f ∈ sampleFields, Spec.WF f)
    ∧ Cookies.getAuthToken false (Spec.lookup (ascii "cookies") sampleFields) = .ok (ascii "tok")
    ∧ (∃ sched token response, server false sched (ascii "GET / HTTP/1.1\r\n" ++ Spec.render sampleFields ++
      List.replicate 300 (7#8)) = .ready token response (List.replicate 46 (7#8))) := by
  have ht : Cookies.getAuthToken false (Spec.lookup (ascii "cookies") sampleFields) = .ok (ascii "tok") := by
    decide +kernel
  refine ⟨sampleFields_wf, ht, ?_⟩
  obtain ⟨sched, e⟩ := (server_drops_exact false sampleFields (List.replicate 300 (7#8)) (ascii "tok") _
    sampleFields_wf ht).2 ⟨254, Nat.le_refl _, (by rw [List.length_replicate]; omega), rfl⟩
  exact ⟨sched, _, _, by rw [e, List.drop_replicate]⟩

end Nbdl.Handshake
