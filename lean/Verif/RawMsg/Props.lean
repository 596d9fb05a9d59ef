import Verif.RawMsg.Spec
/-!
# Properties of length-prefixed messages (C70, C71, C72)
-/
namespace Nbdl.RawMsg
open Spec

/-! ## Lemmas -/

theorem lengthBytes_length (n : Nat) : (lengthBytes n).length = 4 := rfl

/-- The four bytes of a length are read back. -/
theorem lengthOf_bytes (l : BitVec 32) :
    lengthOf ((l >>> 24).setWidth 8) ((l >>> 16).setWidth 8) ((l >>> 8).setWidth 8) (l.setWidth 8)
      = l := by
  unfold lengthOf
  ext i hi
  simp only [BitVec.getElem_or, BitVec.getElem_shiftLeft, BitVec.getElem_setWidth,
    BitVec.getLsbD_setWidth, BitVec.getLsbD_ushiftRight]
  by_cases h1 : i < 8
  · simp [h1, show i < 16 by omega, show i < 24 by omega, BitVec.getLsbD_eq_getElem hi]
  · by_cases h2 : i < 16
    · simp [h1, h2, show i < 24 by omega, show i - 8 < 8 by omega, show i - 8 < 32 by omega,
        show 8 + (i - 8) = i by omega, BitVec.getLsbD_eq_getElem hi]
    · by_cases h3 : i < 24
      · simp [h1, h2, h3, show i - 16 < 8 by omega, show ¬ i - 8 < 8 by omega,
          show i - 16 < 32 by omega, show 16 + (i - 16) = i by omega, BitVec.getLsbD_eq_getElem hi]
      · simp [h1, h2, h3, show i - 24 < 8 by omega, show ¬ i - 8 < 8 by omega,
          show ¬ i - 16 < 8 by omega, show i - 24 < 32 by omega, show 24 + (i - 24) = i by omega,
          BitVec.getLsbD_eq_getElem hi]

theorem chunk_append (w : Wait) (a b : List Byte) :
    chunk w (a ++ b) = ((chunk (chunk w a).1 b).1, (chunk w a).2 ++ (chunk (chunk w a).1 b).2) := by
  induction a generalizing w with
  | nil => rfl
  | cons x a ih => simp [chunk, ih]

theorem read_flatten (w : Wait) (cs : List (List Byte)) : read w cs = chunk w cs.flatten := by
  induction cs generalizing w with
  | nil => rfl
  | cons c cs ih => simp [read, ih, chunk_append]

theorem chunk_body (n : Nat) (got rest : List Byte) (h : got.length + rest.length = n)
    (hr : rest ≠ []) : chunk (.body n got) rest = (.length [], [got ++ rest]) := by
  induction rest generalizing got with
  | nil => exact absurd rfl hr
  | cons b rest ih =>
    cases rest with
    | nil => simp at h; simp [chunk, byte, h]
    | cons c rest =>
      have : ¬ got.length + 1 = n := by simp at h; omega
      have e : byte (.body n got) b = (.body n (got ++ [b]), none) := by simp [byte, this]
      rw [chunk, e]
      simp only
      rw [ih (got ++ [b]) (by simp at h ⊢; omega) (by simp)]
      simp

theorem chunk_write (body : List Byte) (h : body.length < 2 ^ 32) :
    chunk (.length []) (write body) = (.length [], [body]) := by
  have hl := lengthOf_bytes (BitVec.ofNat 32 body.length)
  have e : byte (.length [(BitVec.ofNat 32 body.length >>> 24).setWidth 8,
      (BitVec.ofNat 32 body.length >>> 16).setWidth 8,
      (BitVec.ofNat 32 body.length >>> 8).setWidth 8]) ((BitVec.ofNat 32 body.length).setWidth 8)
      = startBody body.length := by
    simp only [byte]
    rw [hl, BitVec.toNat_ofNat, Nat.mod_eq_of_lt h]
  have hw : write body = [(BitVec.ofNat 32 body.length >>> 24).setWidth 8,
      (BitVec.ofNat 32 body.length >>> 16).setWidth 8,
      (BitVec.ofNat 32 body.length >>> 8).setWidth 8]
      ++ (((BitVec.ofNat 32 body.length).setWidth 8) :: body) := rfl
  rw [hw, chunk_append]
  have e3 : chunk (.length []) [(BitVec.ofNat 32 body.length >>> 24).setWidth 8,
      (BitVec.ofNat 32 body.length >>> 16).setWidth 8,
      (BitVec.ofNat 32 body.length >>> 8).setWidth 8]
      = (.length [(BitVec.ofNat 32 body.length >>> 24).setWidth 8,
      (BitVec.ofNat 32 body.length >>> 16).setWidth 8,
      (BitVec.ofNat 32 body.length >>> 8).setWidth 8], []) := rfl
  rw [e3]
  simp only [chunk, e, startBody]
  by_cases h0 : body = []
  · simp [h0, chunk]
  · have : body.length ≠ 0 := by simpa using h0
    rw [if_neg this]
    simp only
    rw [chunk_body body.length [] body (by simp) h0]
    simp

/-! ## C70 -/

/-- C70, partial (bodies shorter than 2³² bytes): whatever pieces the network makes of the bytes
written, the reader gets exactly the bodies, in order, and then waits for the next length. -/
theorem write_read_partial (bodies : List (List Byte)) (h : ∀ b ∈ bodies, b.length < 2 ^ 32)
    (pieces : List (List Byte)) (hp : pieces.flatten = bodies.flatMap write) :
    read (.length []) pieces = (.length [], bodies) := by
  rw [read_flatten, hp]
  clear hp
  induction bodies with
  | nil => rfl
  | cons b bs ih =>
    rw [List.flatMap_cons, chunk_append, chunk_write b (h b (by simp))]
    simp [ih (fun b' hb => h b' (by simp [hb]))]

/-- What a reader has got is always the beginning of what was written: a prefix of the stream gives
a prefix of the bodies. -/
theorem write_read_prefix_partial (bodies : List (List Byte)) (h : ∀ b ∈ bodies, b.length < 2 ^ 32)
    (pieces : List (List Byte)) (rest : List Byte)
    (hp : pieces.flatten ++ rest = bodies.flatMap write) :
    (read (.length []) pieces).2 <+: bodies := by
  have := write_read_partial bodies h [pieces.flatten, rest] (by simpa using hp)
  rw [read_flatten] at this ⊢
  simp only [List.flatten_cons, List.flatten_nil, List.append_nil, chunk_append, Prod.mk.injEq] at this
  exact ⟨_, this.2⟩

example : write [0x61#8, 0x62#8, 0x63#8] = [0#8, 0#8, 0#8, 3#8, 0x61#8, 0x62#8, 0x63#8] := by decide
example : read (.length []) [[0#8, 0#8], [0#8, 3#8, 0x61#8], [], [0x62#8, 0x63#8, 0#8, 0#8, 0#8], [0#8, 0#8]]
    = (.length [0#8], [[0x61#8, 0x62#8, 0x63#8], []]) := by decide

/-- C70 fails for longer bodies: of a body of 2³² bytes or more the reader gets a shorter one (its
length modulo 2³²), and takes the rest of the body for further messages. -/
theorem long_body_violated (body : List Byte) (h : 2 ^ 32 ≤ body.length) :
    ∃ b rest, (read (.length []) [write body]).2 = b :: rest ∧ b.length = body.length % 2 ^ 32
      ∧ b ≠ body := by
  have hl := lengthOf_bytes (BitVec.ofNat 32 body.length)
  have hlt : body.length % 2 ^ 32 < 2 ^ 32 := Nat.mod_lt _ (by decide)
  -- the stream begins like that of the truncated body
  have e1 : BitVec.ofNat 32 body.length
      = BitVec.ofNat 32 (body.take (body.length % 2 ^ 32)).length := by
    apply BitVec.eq_of_toNat_eq
    simp only [BitVec.toNat_ofNat, List.length_take]
    omega
  have e : write body = write (body.take (body.length % 2 ^ 32)) ++ body.drop (body.length % 2 ^ 32) := by
    unfold write lengthBytes
    rw [← e1]
    simp
  rw [read_flatten]
  simp only [List.flatten_cons, List.flatten_nil, List.append_nil]
  rw [e, chunk_append, chunk_write _ (by simp; omega)]
  refine ⟨_, _, rfl, by simp; omega, fun hb => ?_⟩
  have := congrArg List.length hb
  simp at this
  omega

/-- Such bodies exist. -/
example : ∃ body : List Byte, 2 ^ 32 ≤ body.length := by
  obtain ⟨n, hn⟩ : ∃ n : Nat, n = 2 ^ 32 := ⟨_, rfl⟩
  rw [← hn]
  exact ⟨List.replicate n 0, by rw [List.length_replicate]; exact Nat.le_refl n⟩

/-! ## C71 -/

theorem recvBytes_append {M : Type} (app : App M) (s : St) (a b : List Byte) :
    recvBytes app s (a ++ b) = ((recvBytes app (recvBytes app s a).1 b).1,
      (recvBytes app s a).2 ++ (recvBytes app (recvBytes app s a).1 b).2) := by
  induction a generalizing s with
  | nil => rfl
  | cons x a ih => simp [recvBytes, ih]

theorem recvBytes_finished {M : Type} (app : App M) (bs : List Byte) :
    recvBytes app .finished bs = (.finished, []) := by
  induction bs with
  | nil => rfl
  | cons b bs ih => simp [recvBytes, recvByte, ih]

theorem recv_bytes {M : Type} (app : App M) (s : St) (cs : List (List Byte)) :
    recv app s (cs.map .bytes) = recvBytes app s cs.flatten := by
  induction cs generalizing s with
  | nil => rfl
  | cons c cs ih => simp [recv, recvStep, ih, recvBytes_append]

/-- Handling complete bodies one after the other. -/
def handleAll {M : Type} (app : App M) : List (List Byte) → Bool × List (Obs M)
  | [] => (true, [])
  | b :: bs =>
    match handle app b with
    | (true, o) => ((handleAll app bs).1, o ++ (handleAll app bs).2)
    | (false, o) => (false, o)

theorem handleAll_snd {M : Type} (app : App M) (bs : List (List Byte)) :
    (handleAll app bs).2 = reception app bs := by
  induction bs with
  | nil => rfl
  | cons b bs ih =>
    unfold handleAll reception handle
    cases app.parse b with
    | none => rfl
    | some m =>
      simp only
      cases app.kind m <;> by_cases ht : app.throws m <;> simp [ht, ih]

theorem recvBytes_chunk {M : Type} (app : App M) (w : Wait) (bs : List Byte) :
    recvBytes app (.receiving w) bs
      = ((if (handleAll app (chunk w bs).2).1 then .receiving (chunk w bs).1 else .finished),
          (handleAll app (chunk w bs).2).2) := by
  induction bs generalizing w with
  | nil => rfl
  | cons b bs ih =>
    rcases hb : byte w b with ⟨w', _ | body⟩
    · simp [recvBytes, recvByte, chunk, hb, ih]
    · rcases hh : handle app body with ⟨_ | _, o⟩
      · simp [recvBytes, recvByte, chunk, hb, hh, recvBytes_finished, handleAll]
      · simp [recvBytes, recvByte, chunk, hb, hh, ih, handleAll]

/-- C71: over any stream, in whatever pieces it arrives, the receiver does what the specification
says of the bodies in the stream, in order, up to the first one that ends the reception. -/
theorem receive_correct {M : Type} (app : App M) (pieces : List (List Byte)) :
    (recv app (.receiving (.length [])) (pieces.map .bytes)).2
      = reception app (read (.length []) pieces).2 := by
  rw [recv_bytes, recvBytes_chunk, read_flatten]
  exact handleAll_snd app _

/-- C71: the messages of a peer that uses `write_raw_message`, for bodies of less than 2³² bytes. -/
theorem send_receive_partial {M : Type} (app : App M) (bodies : List (List Byte))
    (h : ∀ b ∈ bodies, b.length < 2 ^ 32) (pieces : List (List Byte))
    (hp : pieces.flatten = bodies.flatMap write) :
    (recv app (.receiving (.length [])) (pieces.map .bytes)).2 = reception app bodies := by
  rw [receive_correct, write_read_partial bodies h pieces hp]

/-- C71 fails for longer bodies: whatever the body of 2³² bytes or more, a receiver that takes every
body for a message does not act on this one. -/
theorem receive_long_violated (body : List Byte) (h : 2 ^ 32 ≤ body.length) :
    ∃ app : App (List Byte), app.parse body = some body ∧ reception app [body] = [.action body]
      ∧ ∃ b rest, b ≠ body
        ∧ (recv app (.receiving (.length [])) [.bytes (write body)]).2 = .action b :: rest := by
  obtain ⟨b, rest, e, -, hb⟩ := long_body_violated body h
  refine ⟨⟨some, fun _ => .other, fun _ => false⟩, rfl, rfl, b,
    reception ⟨some, fun _ => .other, fun _ => false⟩ rest, hb, ?_⟩
  have := receive_correct (M := List Byte) ⟨some, fun _ => .other, fun _ => false⟩ [write body]
  rw [e] at this
  exact this

/-- C71: if every body decodes, no action throws and only the last message is the terminating one,
every message gets its action, in order, and the promise is then resolved with the last one. -/
theorem receive_all_partial {M : Type} (app : App M) (encode : M → List Byte) (ms : List M) (last : M)
    (he : ∀ m, app.parse (encode m) = some m) (hlen : ∀ m, (encode m).length < 2 ^ 32)
    (ht : ∀ m, app.throws m = false) (ho : ∀ m ∈ ms, app.kind m = .other)
    (hl : app.kind last = .terminate) (pieces : List (List Byte))
    (hp : pieces.flatten = (ms ++ [last]).flatMap (fun m => write (encode m))) :
    (recv app (.receiving (.length [])) (pieces.map .bytes)).2
      = ms.map .action ++ [.action last, .closed, .resolved last] := by
  rw [send_receive_partial app ((ms ++ [last]).map encode)
    (by intro b hb; obtain ⟨m, -, rfl⟩ := List.mem_map.1 hb; exact hlen m) pieces
    (by rw [hp, List.flatMap_map])]
  clear hp
  induction ms with
  | nil => simp [reception, he, hl, ht]
  | cons m ms ih =>
    have hk := ho m (by simp)
    have := ih (fun m' h' => ho m' (by simp [h']))
    simp only [List.cons_append, List.map_cons, reception, he, hk, ht]
    simpa using this

/-- C71: whatever arrives, errors included, the promise is settled at most once and nothing happens
after that. -/
theorem settled_once {M : Type} (app : App M) (is : List In) (pre post : List (Obs M)) (o : Obs M)
    (h : (recv app (.receiving (.length [])) is).2 = pre ++ o :: post) (ho : settles o = true) :
    post = [] := by
  -- a step from a receiving state ends with its settling observation, and is then finished
  have last : ∀ (l : List (Obs M)) (x : Obs M), (∀ y ∈ l, settles y = false) →
      ∀ pre post o, l ++ [x] = pre ++ o :: post → settles o = true → post = [] := by
    intro l x hl pre post o e hs
    rcases List.eq_nil_or_concat post with hp | ⟨q, y, rfl⟩
    · exact hp
    · exfalso
      have e' : l ++ [x] = (pre ++ o :: q) ++ [y] := by simpa using e
      have := (List.append_inj_left' e' rfl)
      have := hl o (by rw [this]; simp)
      rw [hs] at this; cases this
  have Q : ∀ (s : St) (i : Byte), (∀ y ∈ (recvByte app s i).2, settles y = false)
      ∨ ((recvByte app s i).1 = .finished ∧ ∃ l x, (recvByte app s i).2 = l ++ [x]
        ∧ ∀ y ∈ l, settles y = false) := by
    intro s i
    cases s with
    | finished => left; simp [recvByte]
    | receiving w =>
      rcases hb : byte w i with ⟨w', _ | body⟩
      · left; simp [recvByte, hb]
      · have hd : (handle app body).1 = true ∧ (∀ y ∈ (handle app body).2, settles y = false)
            ∨ (handle app body).1 = false ∧ ∃ l x, (handle app body).2 = l ++ [x]
              ∧ ∀ y ∈ l, settles y = false := by
          unfold handle
          cases app.parse body with
          | none => right; exact ⟨rfl, [], _, rfl, by simp⟩
          | some m =>
            simp only
            cases app.kind m <;> by_cases ht : app.throws m
            · left; simp
            · left; simp
            · right; simp only [ht, if_true]; exact ⟨trivial, [.action m], _, rfl, by simp [settles]⟩
            · right; simp only [ht]; exact ⟨rfl, [.action m, .closed], _, rfl, by simp [settles]⟩
            · right; simp only [ht, if_true]; exact ⟨trivial, [.action m], _, rfl, by simp [settles]⟩
            · left; simp [ht, settles]
        rcases hh : handle app body with ⟨_ | _, o⟩
        · rw [hh] at hd
          rcases hd with ⟨hd, -⟩ | ⟨-, hd⟩
          · cases hd
          · right; simpa [recvByte, hb, hh] using hd
        · rw [hh] at hd
          rcases hd with ⟨-, hd⟩ | ⟨hd, -⟩
          · left; simpa [recvByte, hb, hh] using hd
          · cases hd
  have R : ∀ (bs : List Byte) (s : St), (∀ y ∈ (recvBytes app s bs).2, settles y = false)
      ∨ ((recvBytes app s bs).1 = .finished ∧ ∃ l x, (recvBytes app s bs).2 = l ++ [x]
        ∧ ∀ y ∈ l, settles y = false) := by
    intro bs
    induction bs with
    | nil => intro s; left; simp [recvBytes]
    | cons b bs ih =>
      intro s
      simp only [recvBytes]
      rcases Q s b with hq | ⟨hf, l, x, hlx, hl⟩
      · rcases ih (recvByte app s b).1 with hi | ⟨hf, l, x, hlx, hl⟩
        · left
          intro y hy
          rcases List.mem_append.1 hy with hy | hy
          · exact hq y hy
          · exact hi y hy
        · right
          refine ⟨hf, (recvByte app s b).2 ++ l, x, by simp [hlx], ?_⟩
          intro y hy
          rcases List.mem_append.1 hy with hy | hy
          · exact hq y hy
          · exact hl y hy
      · right
        rw [hf, recvBytes_finished]
        exact ⟨rfl, l, x, by simp [hlx], hl⟩
  have F : ∀ is : List In, recv app .finished is = (.finished, ([] : List (Obs M))) := by
    intro is
    induction is with
    | nil => rfl
    | cons i is ih => cases i <;> simp [recv, recvStep, recvBytes_finished, ih]
  have T : ∀ (is : List In) (s : St), (∀ y ∈ (recv app s is).2, settles y = false)
      ∨ ∃ l x, (recv app s is).2 = l ++ [x] ∧ ∀ y ∈ l, settles y = false := by
    intro is
    induction is with
    | nil => intro s; left; simp [recv]
    | cons i is ih =>
      intro s
      have step : (∀ y ∈ (recvStep app s i).2, settles y = false)
          ∨ ((recvStep app s i).1 = .finished ∧ ∃ l x, (recvStep app s i).2 = l ++ [x]
            ∧ ∀ y ∈ l, settles y = false) := by
        cases i with
        | bytes c => exact R c s
        | error e =>
          cases s with
          | finished => left; simp [recvStep]
          | receiving w => right; exact ⟨rfl, [], _, rfl, by simp⟩
      simp only [recv]
      rcases step with hq | ⟨hf, l, x, hlx, hl⟩
      · rcases ih (recvStep app s i).1 with hi | ⟨l, x, hlx, hl⟩
        · left
          intro y hy
          rcases List.mem_append.1 hy with hy | hy
          · exact hq y hy
          · exact hi y hy
        · right
          refine ⟨(recvStep app s i).2 ++ l, x, by simp [hlx], ?_⟩
          intro y hy
          rcases List.mem_append.1 hy with hy | hy
          · exact hq y hy
          · exact hl y hy
      · right
        rw [hf, F]
        exact ⟨l, x, by simp [hlx], hl⟩
  rcases T is (.receiving (.length [])) with hn | ⟨l, x, hlx, hl⟩
  · have := hn o (by rw [h]; simp)
    rw [ho] at this; cases this
  · exact last l x hl pre post o (by rw [← hlx, h]) ho

/-- C71: an error of the socket before the end is reported. -/
theorem error_reported {M : Type} (app : App M) (is : List In) (e : Nat) (w : Wait)
    (h : (recv app (.receiving (.length [])) is).1 = .receiving w) :
    (recv app (.receiving (.length [])) (is ++ [.error e])).2
      = (recv app (.receiving (.length [])) is).2 ++ [.rejectedIo e] := by
  have app_ : ∀ (is : List In) (s : St), recv app s (is ++ [.error e])
      = ((recvStep app (recv app s is).1 (.error e)).1,
        (recv app s is).2 ++ (recvStep app (recv app s is).1 (.error e)).2) := by
    intro is
    induction is with
    | nil => intro s; simp [recv]
    | cons i is ih => intro s; simp [recv, ih]
  rw [app_, h]
  rfl

/-- A small application: one-byte messages; 0 is unresolved, 1 terminates, 9 does not decode and
the action of 8 throws. -/
def sampleApp : App Nat where
  parse
    | [b] => if b = 9#8 then none else some b.toNat
    | _ => none
  kind n := if n = 0 then .unresolved else if n = 1 then .terminate else .other
  throws n := n == 8

example : (recv sampleApp (.receiving (.length []))
    [.bytes (write [5#8] ++ write [0#8]), .bytes (write [6#8] ++ write [1#8] ++ write [7#8]), .error 3]).2
    = [.action 5, .action 6, .action 1, .closed, .resolved 1] := by decide
example : (recv sampleApp (.receiving (.length []))
    [.bytes (write [5#8] ++ write [8#8]), .bytes (write [6#8])]).2 = [.action 5, .action 8, .rejected] := by
  decide
example : (recv sampleApp (.receiving (.length [])) [.bytes (write [5#8]), .error 3]).2
    = [.action 5, .rejectedIo 3] := by decide

/-! ## C72 -/

/-- C72 fails: with `attempts{n}`, a server that cannot be reached is tried `n + 1` times before the
promise is rejected. -/
theorem connect_attempts_violated (n : Nat) :
    connect n 0 0 (List.replicate (n + 1) false) = .rejected (n + 1) := by
  have key : ∀ k failed calls : Nat, failed + k = n →
      connect n failed calls (List.replicate (k + 1) false) = .rejected (calls + k + 1) := by
    intro k
    induction k with
    | zero => intro f c h; simp [connect, show (f : Int) ≥ n by omega]
    | succ k ih =>
      intro f c h
      rw [List.replicate_succ, connect, if_neg (by omega), ih (f + 1) (c + 1) (by omega)]
      congr 1
      omega
  have := key n 0 0 (by omega)
  simpa using this

/-- C72, partial: it is connected at the first success within `n + 1` tries, and makes no call after
that. -/
theorem connect_first_success_partial (n k : Nat) (hk : k ≤ n) (rest : List Bool) :
    connect n 0 0 (List.replicate k false ++ true :: rest) = .connected (k + 1) := by
  have key : ∀ k failed calls : Nat, failed + k ≤ n →
      connect n failed calls (List.replicate k false ++ true :: rest) = .connected (calls + k + 1) := by
    intro k
    induction k with
    | zero => intro f c h; simp [connect]
    | succ k ih =>
      intro f c h
      rw [List.replicate_succ, List.cons_append, connect, if_neg (by omega),
        ih (f + 1) (c + 1) (by omega)]
      congr 1
      omega
  have := key k 0 0 (by omega)
  simpa using this

/-- C72, partial: whatever the outcomes, at most `n + 1` calls are made, and the promise is settled
as soon as one succeeds or `n + 1` have failed. -/
theorem connect_bounded_partial (n : Nat) (results : List Bool) :
    (∃ c ≤ n + 1, connect n 0 0 results = .connected c)
    ∨ connect n 0 0 results = .rejected (n + 1)
    ∨ (∃ c ≤ n + 1, connect n 0 0 results = .pending c) := by
  have key : ∀ (results : List Bool) (f : Nat), f ≤ n →
      (∃ c ≤ n + 1, connect n f f results = .connected c)
      ∨ connect n f f results = .rejected (n + 1)
      ∨ (∃ c ≤ n + 1, connect n f f results = .pending c) := by
    intro results
    induction results with
    | nil => intro f h; exact .inr (.inr ⟨f + 1, by omega, rfl⟩)
    | cons r rs ih =>
      intro f h
      cases r with
      | true => exact .inl ⟨f + 1, by omega, rfl⟩
      | false =>
        rw [connect]
        by_cases hf : (f : Int) ≥ n
        · rw [if_pos hf]; right; left; congr 1; omega
        · rw [if_neg hf]; exact ih (f + 1) (by omega)
  exact key results 0 (by omega)

example : connect 2 0 0 [false, false, true] = .connected 3
    ∧ connect 2 0 0 [false, false, false] = .rejected 3 := by decide

end Nbdl.RawMsg
