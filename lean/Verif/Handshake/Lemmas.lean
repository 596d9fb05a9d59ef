import Verif.Handshake.Model
import Verif.Handshake.Spec
import Verif.Sha1.Props
import Verif.Base64.Props
/-! Helper lemmas about the handshake. -/
namespace Nbdl.Handshake

theorem findCrlf_none (l : List Byte) (h : lf ∉ l) : findCrlf l = none := by
  induction l with
  | nil => rfl
  | cons a l ih =>
    cases l with
    | nil => rfl
    | cons b l =>
      rw [findCrlf, if_neg (by rintro ⟨-, rfl⟩; simp at h), ih (by simp at h ⊢; exact h.2)]
      rfl

theorem findCrlf_line (l r : List Byte) (h : lf ∉ l) : findCrlf (l ++ crlf ++ r) = some l.length := by
  induction l with
  | nil => simp [crlf, findCrlf]
  | cons a l ih =>
    have ih := ih (by simp at h; exact h.2)
    cases l with
    | nil =>
      rw [show [a] ++ crlf ++ r = a :: cr :: lf :: r from rfl, findCrlf,
        if_neg (by rintro ⟨-, h⟩; exact absurd h (by decide))]
      rw [show [] ++ crlf ++ r = cr :: lf :: r from rfl] at ih
      rw [ih]; rfl
    | cons b l =>
      rw [show (a :: b :: l) ++ crlf ++ r = a :: b :: (l ++ crlf ++ r) from rfl, findCrlf,
        if_neg (by rintro ⟨-, rfl⟩; simp at h)]
      rw [show (b :: l) ++ crlf ++ r = b :: (l ++ crlf ++ r) from rfl] at ih
      rw [ih]; rfl

theorem chunk_bounds (sched : Nat → Nat) (i b s : Nat) (hb : b < maxBuf) :
    1 ≤ chunk sched i b s ∧ b + chunk sched i b s ≤ maxBuf := by
  unfold chunk; omega

/-- A line that fits the buffer is found, whatever the schedule. -/
theorem readLine_line (sched : Nat → Nat) (i : Nat) (buf stream l rest : List Byte)
    (hl : lf ∉ l) (hsz : l.length + 2 ≤ maxBuf) (hb : buf.length ≤ maxBuf)
    (h : buf ++ stream = l ++ crlf ++ rest) :
    ∃ j buf' stream', readLine sched i buf stream = .line l buf' j stream'
      ∧ buf' ++ stream' = rest ∧ buf'.length ≤ maxBuf := by
  induction hn : stream.length using Nat.strongRecOn generalizing i buf stream with
  | ind n ih =>
    rw [readLine]
    by_cases hle : (l ++ crlf).length ≤ buf.length
    · have e : buf = l ++ crlf ++ buf.drop (l ++ crlf).length := by
        have h1 : buf.take (l ++ crlf).length = l ++ crlf := by
          have := congrArg (List.take (l ++ crlf).length) h
          rw [List.take_append_of_le_length hle, List.take_left' rfl] at this
          exact this
        have h2 := List.take_append_drop (l ++ crlf).length buf
        rw [h1] at h2; exact h2.symm
      have hf : findCrlf buf = some l.length := by rw [e]; exact findCrlf_line _ _ hl
      rw [hf]
      refine ⟨i, buf.drop (l.length + 2), stream, ?_, ?_, ?_⟩
      · simp only [Line.line.injEq, and_self, and_true, true_and]
        rw [e, List.append_assoc]; exact List.take_left' rfl
      · have := congrArg (List.drop (l ++ crlf).length) h
        rw [List.drop_append_of_le_length hle, List.drop_left' rfl] at this
        rw [← this]
        simp [crlf]
      · rw [List.length_drop]; omega
    · have hlt : buf.length ≤ (l ++ [cr]).length := by
        simp only [List.length_append, crlf, List.length_cons, List.length_nil] at hle ⊢; omega
      have e : buf = (l ++ [cr]).take buf.length := by
        have h3 : buf ++ stream = (l ++ [cr]) ++ (lf :: rest) := by rw [h]; simp [crlf]
        have := congrArg (List.take buf.length) h3
        rw [List.take_left' rfl, List.take_append_of_le_length hlt] at this
        exact this
      have hno : lf ∉ buf := by
        rw [e]; intro hm
        have := List.mem_of_mem_take hm
        simp only [List.mem_append, List.mem_singleton] at this
        rcases this with hm | hm
        · exact hl hm
        · exact absurd hm (by decide)
      rw [findCrlf_none _ hno]
      have hlt2 : buf.length < maxBuf := by
        simp only [List.length_append, crlf, List.length_cons, List.length_nil] at hle; omega
      have hs : stream ≠ [] := by
        rintro rfl
        have := congrArg List.length h
        simp only [List.length_append, List.length_nil, crlf, List.length_cons] at this hle; omega
      simp only
      rw [if_neg (by omega), dif_neg hs]
      have hc := chunk_bounds sched i buf.length stream.length hlt2
      have h2 := List.length_pos_iff.2 hs
      refine ih _ (by rw [List.length_drop]; omega) _ _ _ ?_ ?_ rfl
      · simp only [List.length_append, List.length_take]; omega
      · rw [List.append_assoc, List.take_append_drop, h]

/-- A line that does not fit the buffer is an error, whatever the schedule. -/
theorem readLine_long (sched : Nat → Nat) (i : Nat) (buf stream : List Byte)
    (hb : buf.length ≤ maxBuf) (hsz : maxBuf ≤ (buf ++ stream).length)
    (h : findCrlf ((buf ++ stream).take maxBuf) = none) (hp : ∀ k ≤ maxBuf, findCrlf ((buf ++ stream).take k) = none) :
    readLine sched i buf stream = .notFound := by
  induction hn : stream.length using Nat.strongRecOn generalizing i buf stream with
  | ind n ih =>
    have hbuf : findCrlf buf = none := by
      have := hp buf.length hb
      rwa [List.take_left' rfl] at this
    rw [readLine, hbuf]
    simp only
    by_cases hfull : maxBuf ≤ buf.length
    · rw [if_pos hfull]
    · have hs : stream ≠ [] := by
        rintro rfl; simp at hsz; omega
      rw [if_neg hfull, dif_neg hs]
      have hc := chunk_bounds sched i buf.length stream.length (by omega)
      have h2 := List.length_pos_iff.2 hs
      have e : buf ++ stream.take (chunk sched i buf.length stream.length)
          ++ stream.drop (chunk sched i buf.length stream.length) = buf ++ stream := by
        rw [List.append_assoc, List.take_append_drop]
      refine ih _ (by rw [List.length_drop]; omega) _ _ _ ?_ ?_ ?_ ?_ rfl
      · simp only [List.length_append, List.length_take]; omega
      · rw [e]; exact hsz
      · rw [e]; exact h
      · rw [e]; exact hp

/-- `parse_header` on one line after the other. -/
def parseAll (info : Info) : List (List Byte) → Cpp Info
  | [] => .ok info
  | l :: ls => (parseHeader info l).bind fun i => parseAll i ls

theorem readHeaders_lines (sched : Nat → Nat) (lines : List (List Byte)) (info : Info) (i : Nat)
    (buf stream rest : List Byte)
    (hl : ∀ l ∈ lines, lf ∉ l ∧ l ≠ [] ∧ l.length + 2 ≤ maxBuf) (hb : buf.length ≤ maxBuf)
    (h : buf ++ stream = lines.flatMap (· ++ crlf) ++ crlf ++ rest) :
    ∃ buf' stream', buf' ++ stream' = rest ∧
      readHeaders sched info i buf stream = match parseAll info lines with
        | .ub => .ub
        | .ok info' => .done info' (crlf ++ buf') stream' := by
  induction lines generalizing info i buf stream with
  | nil =>
    obtain ⟨j, buf', stream', h1, h2, -⟩ := readLine_line sched i buf stream [] rest (by simp)
      (by decide) hb (by rw [h]; simp)
    refine ⟨buf', stream', h2, ?_⟩
    rw [readHeaders]
    split <;> rename_i heq <;> rw [h1] at heq <;> cases heq
    simp [parseAll]
  | cons l ls ih =>
    have hl1 := hl l (by simp)
    obtain ⟨j, buf', stream', h1, h2, h3⟩ := readLine_line sched i buf stream l
      (ls.flatMap (· ++ crlf) ++ crlf ++ rest) hl1.1 hl1.2.2 hb (by rw [h]; simp)
    cases hp : parseHeader info l with
    | ub =>
      refine ⟨[], rest, rfl, ?_⟩
      rw [readHeaders]
      split <;> rename_i heq <;> rw [h1] at heq <;> cases heq
      simp only [parseAll, hp, Cpp.bind, if_neg hl1.2.1]
    | ok info1 =>
      obtain ⟨b2, s2, h4, h5⟩ := ih info1 j buf' stream' (fun x hx => hl x (by simp [hx])) h3 h2
      refine ⟨b2, s2, h4, ?_⟩
      rw [readHeaders]
      split <;> rename_i heq <;> rw [h1] at heq <;> cases heq
      simp only [if_neg hl1.2.1, hp, parseAll, Cpp.bind]
      exact h5

/-! ### Single headers -/

theorem lowerAll_ok (l : List Byte) (h : ∀ b ∈ l, b.toNat < 128) :
    lowerAll l = .ok (l.map Spec.lower) := by
  induction l with
  | nil => rfl
  | cons b l ih =>
    have hb := h b (by simp)
    rw [lowerAll, ih (fun c hc => h c (by simp [hc]))]
    unfold toLower Spec.lower
    rw [if_neg (by omega)]
    by_cases hc : 65 ≤ b.toNat ∧ b.toNat ≤ 90 <;> simp [hc, Cpp.bind, Cpp.map]

/-- The effect of one well-formed field. -/
def stepField (info : Info) (f : Spec.Field) : Info :=
  if f.name.map Spec.lower = ascii "sec-websocket-key" then
    { info with websocketKey := f.value.dropWhile (· = 32#8) }
  else if f.name.map Spec.lower = ascii "cookies" then
    { info with cookies := f.value.dropWhile (· = 32#8) }
  else info

theorem takeWhile_name (n r : List Byte) (h : ∀ b ∈ n, b ≠ colon) :
    (n ++ colon :: r).takeWhile (· != colon) = n ∧ (n ++ colon :: r).dropWhile (· != colon) = colon :: r := by
  induction n with
  | nil => simp
  | cons b n ih =>
    have hb := h b (by simp)
    have := ih (fun c hc => h c (by simp [hc]))
    simp [List.takeWhile_cons, List.dropWhile_cons, hb] at this ⊢
    exact this

def Spec.Field.line (f : Spec.Field) : List Byte := f.name ++ colon :: f.value

theorem render_line (f : Spec.Field) : f.render = f.line ++ crlf := by
  unfold Spec.Field.render Spec.Field.line
  rw [show ascii ":" = [colon] by decide, show ascii "\r\n" = crlf by decide]
  simp

theorem parseHeader_field (info : Info) (f : Spec.Field) (h : Spec.WF f) :
    parseHeader info f.line = .ok (stepField info f) := by
  have ht := takeWhile_name f.name f.value (fun b hb => (h.1 b hb).2.1)
  unfold parseHeader Spec.Field.line
  simp only [ht.1, ht.2]
  rw [lowerAll_ok _ (fun b hb => (h.1 b hb).1)]
  have e : f.value.dropWhile (fun x => x == space) = f.value.dropWhile (fun x => decide (x = 32#8)) := by
    congr 1
  simp only [Cpp.bind, fieldValue, Cpp.map, stepField, e]
  split
  · rfl
  · split <;> rfl

theorem parseAll_fields (fs : List Spec.Field) (info : Info) (h : ∀ f ∈ fs, Spec.WF f) :
    parseAll info (fs.map Spec.Field.line) = .ok (fs.foldl stepField info) := by
  induction fs generalizing info with
  | nil => rfl
  | cons f fs ih =>
    simp only [List.map_cons, parseAll, List.foldl_cons]
    rw [parseHeader_field info f (h f (by simp))]
    exact ih _ (fun g hg => h g (by simp [hg]))

theorem foldl_stepField (fs : List Spec.Field) :
    fs.foldl stepField {} = { websocketKey := Spec.lookup (ascii "sec-websocket-key") fs,
                              cookies := Spec.lookup (ascii "cookies") fs } := by
  induction hr : fs.reverse generalizing fs with
  | nil =>
    have : fs = [] := by simpa using hr
    subst this; simp [Spec.lookup]
  | cons f r ih =>
    have hfs : fs = r.reverse ++ [f] := by rw [← List.reverse_reverse fs, hr]; simp
    subst hfs
    rw [List.foldl_append, ih r.reverse (by simp)]
    simp only [List.foldl_cons, List.foldl_nil, stepField, Spec.lookup, List.reverse_append,
      List.reverse_cons, List.reverse_nil, List.nil_append, List.singleton_append, List.find?_cons,
      List.reverse_reverse]
    by_cases h1 : f.name.map Spec.lower = ascii "sec-websocket-key"
    · have : ¬ (ascii "sec-websocket-key" = ascii "cookies") := by decide
      simp [h1, this]
    · by_cases h2 : f.name.map Spec.lower = ascii "cookies"
      · have : ¬ (ascii "cookies" = ascii "sec-websocket-key") := by decide
        simp [h2, this]
      · simp [h1, h2]

theorem readHeaders_fields (sched : Nat → Nat) (fs : List Spec.Field) (rest : List Byte)
    (h : ∀ f ∈ fs, Spec.WF f) :
    ∃ buf unread, buf ++ unread = rest ∧
      readHeaders sched {} 0 [] (Spec.render fs ++ rest)
        = .done { websocketKey := Spec.lookup (ascii "sec-websocket-key") fs,
                  cookies := Spec.lookup (ascii "cookies") fs } (crlf ++ buf) unread := by
  have e : Spec.render fs = (fs.map Spec.Field.line).flatMap (· ++ crlf) ++ crlf := by
    unfold Spec.render
    rw [List.flatMap_map, show ascii "\r\n" = crlf by decide]
    congr 2
    funext f; exact render_line f
  have hw : ∀ l ∈ fs.map Spec.Field.line, lf ∉ l ∧ l ≠ [] ∧ l.length + 2 ≤ maxBuf := by
    intro l hl
    obtain ⟨f, hf, rfl⟩ := List.mem_map.1 hl
    obtain ⟨w1, w2, w3⟩ := h f hf
    refine ⟨?_, ?_, ?_⟩
    · simp only [Spec.Field.line, List.mem_append, List.mem_cons, not_or]
      exact ⟨fun hm => (w1 _ hm).2.2 rfl, by decide, fun hm => w2 _ hm rfl⟩
    · simp [Spec.Field.line]
    · rw [render_line, List.length_append] at w3
      exact w3
  obtain ⟨b, s, h1, h2⟩ := readHeaders_lines sched (fs.map Spec.Field.line) {} 0 []
    (Spec.render fs ++ rest) rest hw (by simp) (by rw [e]; simp)
  refine ⟨b, s, h1, ?_⟩
  rw [h2, parseAll_fields fs {} h, foldl_stepField]

theorem sha1_length (m : List Byte) : (Sha1.Spec.sha1 m).length = 20 := by
  simp [Sha1.Spec.sha1, Sha1.Spec.bytes]

theorem acceptToken_eq (key : List Byte) : acceptToken key = .ok (Spec.accept key) := by
  have h1 : Sha1.finish (Sha1.update (Sha1.update Sha1.init key) guid) = Sha1.Spec.sha1 (key ++ guid) := by
    have := Sha1.chunk_independent' [key, guid] [key ++ guid] (by simp)
    rw [Sha1.is_fips180] at this
    exact this
  unfold acceptToken
  rw [h1]
  exact (Base64.encode_is_rfc4648 _ (by rw [sha1_length]; decide)).1

end Nbdl.Handshake
