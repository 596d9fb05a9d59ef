import Verif.Link.Spec
import Verif.Endpoint.Props
import Verif.Ws.Props

/-!
# Lemmas on conversations
-/

namespace Nbdl.Link
open Nbdl.Endpoint (St In Obs Frame Err Note trace exec loop startSendQueue callHandler onRead SInv)
open Nbdl.Ws (sendMessage maxFrameSize opText opBinary opClose run glue sentFrames)
open Nbdl.Ws.Spec (encodeFrame receive contUnmasked)

/-! ## Octets -/

/-- The frames of messages, and of a close frame if `cl`. -/
def wire (ms : List Msg) (cl : Bool) : List (Frame Msg) :=
  ms.map .data ++ if cl then [.close] else []

theorem close_octets (op : Byte) : octets op .close = encodeFrame ⟨true, 8, none, []⟩ := by
  have h := Ws.sendMessage_encode maxFrameSize (by decide) (by decide) 8 (by decide) []
  have e : sentFrames maxFrameSize (by decide) 8 [] = [⟨true, 8, none, []⟩] := by
    rw [sentFrames]; simp [maxFrameSize]
  rw [e] at h
  simpa [octets, opClose] using h

/-- A close frame with a payload. -/
def closing : Option (List Byte) → List Ws.Spec.Frame
  | none => []
  | some p => [⟨true, 8, none, p⟩]

/-- What the reader reports of it. -/
def stopped : Option (List Byte) → Ws.Stop
  | none => .waiting
  | some p => .close p

theorem run_closing (hw : Bool) (op : Byte) (hop : op = opText ∨ op = opBinary) (ms : List Msg)
    (cl : Option (List Byte)) (hcl : ∀ p, cl = some p → p.length < 65536) :
    run hw [] ((ms.map .data).flatMap (octets op) ++ (closing cl).flatMap encodeFrame)
      = ((glue 125 [] ms).map Ws.Event.message, stopped cl) := by
  obtain ⟨n, hn, rfl⟩ : ∃ n, (n = 1 ∨ n = 2) ∧ op = BitVec.ofNat 8 n := by
    rcases hop with rfl | rfl
    · exact ⟨1, .inl rfl, rfl⟩
    · exact ⟨2, .inr rfl, rfl⟩
  have hn2 : n ≤ 2 := by omega
  have h1 : (ms.map .data).flatMap (octets (BitVec.ofNat 8 n)) ++ (closing cl).flatMap encodeFrame
      = (ms.flatMap (sentFrames maxFrameSize (by decide) n) ++ closing cl).flatMap encodeFrame := by
    simp only [List.flatMap_append, List.flatMap_assoc, List.flatMap_map]
    congr 1
    congr 1
    funext p
    exact Ws.sendMessage_encode maxFrameSize (by decide) (by decide) n (by omega) p
  have hp : ∀ f ∈ ms.flatMap (sentFrames maxFrameSize (by decide) n) ++ closing cl,
      (f.opcode ≤ 2 ∨ f.opcode = 8) ∧ f.payload.length < 65536 ∧ f.mask = none := by
    intro f hf
    rcases List.mem_append.1 hf with hf | hf
    · obtain ⟨p, _, hfp⟩ := List.mem_flatMap.1 hf
      have := Ws.sentFrames_props maxFrameSize (by decide) (by decide) n hn2 p f hfp
      exact ⟨.inl this.1, this.2⟩
    · cases cl with
      | none => simp [closing] at hf
      | some p => simp [closing] at hf; subst hf; simpa using hcl p rfl
  have hmask : ∀ (fs : List Ws.Spec.Frame) (st : Bool), (∀ f ∈ fs, f.mask = none) →
      contUnmasked st fs := by
    intro fs
    induction fs with
    | nil => intro st _; trivial
    | cons f fs ih =>
      intro st h
      have h' := fun g hg => h g (List.mem_cons_of_mem f hg)
      unfold contUnmasked
      split
      · exact ⟨fun _ => h f (by simp), ih _ h'⟩
      · exact ih _ h'
  rw [h1, Ws.run_encode hw _ [] (fun f hf => by have := hp f hf; omega) (fun f hf => (hp f hf).2.1)
    (fun f hf h => by have := hp f hf; omega) false (fun _ => rfl)
    (hmask _ _ (fun f hf => (hp f hf).2.2))]
  have key : ∀ acc, receive acc (ms.flatMap (sentFrames maxFrameSize (by decide) n) ++ closing cl)
      = ((glue 125 acc ms).map Ws.Event.message, stopped cl) := by
    clear h1 hp
    induction ms with
    | nil => intro acc; cases cl <;> simp [closing, receive, glue, stopped]
    | cons p ps ih =>
      intro acc
      rw [List.flatMap_cons, List.append_assoc, Ws.receive_sent maxFrameSize (by decide) n hn2]
      unfold glue
      by_cases hf : p.length % 125 = 0 ∧ p ≠ []
      · have : Ws.finished maxFrameSize p = false := by simp [Ws.finished, maxFrameSize, hf.1, hf.2]
        rw [this, if_pos hf, if_neg (by simp), ih]
      · have : Ws.finished maxFrameSize p = true := by
          unfold Ws.finished
          by_cases h0 : p.length % maxFrameSize = 0
          · have : p = [] := by
              cases p with
              | nil => rfl
              | cons a l => exact absurd ⟨h0, by simp⟩ hf
            simp [this]
          · simp [h0]
        rw [this, if_neg hf, if_pos rfl, ih]; rfl
  exact key []

/-- What a reader reports for the octets of messages and perhaps a close frame. -/
theorem run_wire (hw : Bool) (op : Byte) (hop : op = opText ∨ op = opBinary) (ms : List Msg)
    (cl : Bool) :
    run hw [] ((wire ms cl).flatMap (octets op))
      = ((glue 125 [] ms).map Ws.Event.message, if cl then .close [] else .waiting) := by
  cases cl with
  | false => simpa [wire, closing, stopped] using run_closing hw op hop ms none (by simp)
  | true =>
    have := run_closing hw op hop ms (some []) (by simp)
    simpa [wire, closing, close_octets, stopped] using this

/-- What was reported stays, and after a stop nothing changes. -/
theorem run_prefix (hw : Bool) {s t : List Byte} (h : s <+: t) :
    (run hw [] s).1 <+: (run hw [] t).1 ∧ ((run hw [] s).2 ≠ .waiting → run hw [] t = run hw [] s) := by
  obtain ⟨u, rfl⟩ := h
  have := Ws.stream_resume hw [] s
  by_cases hst : (run hw [] s).2 = .waiting
  · obtain ⟨acc', left, -, -, h3⟩ := this.2 hst
    exact ⟨⟨_, (congrArg Prod.fst (h3 u)).symm⟩, fun h => absurd hst h⟩
  · rw [this.1 hst]
    exact ⟨List.prefix_refl _, fun _ => rfl⟩

theorem glue_prefix (k : Nat) : ∀ (xs ys : List Msg) (acc : Msg), xs <+: ys →
    glue k acc xs <+: glue k acc ys
  | [], ys, acc, _ => by simp [glue]
  | x :: xs, [], acc, h => by simp at h
  | x :: xs, y :: ys, acc, h => by
    obtain ⟨rfl, h'⟩ := List.cons_prefix_cons.1 h
    unfold glue
    split
    · exact glue_prefix k xs ys _ h'
    · exact List.cons_prefix_cons.2 ⟨rfl, glue_prefix k xs ys _ h'⟩

theorem glue_fits : ∀ (xs : List Msg), (∀ m ∈ xs, Fits m) → glue 125 [] xs = xs
  | [], _ => rfl
  | x :: xs, h => by
    have hx := h x (by simp)
    unfold glue
    rw [if_neg (by rintro ⟨h1, h2⟩; rcases hx with hx | hx <;> contradiction),
      glue_fits xs (fun m hm => h m (by simp [hm]))]
    rfl

/-! ## Frames that were begun -/

/-- The frames begun before a write failed. -/
def begun : List (Obs Msg) → List (Frame Msg)
  | [] => []
  | .begin f :: t => f :: begun t
  | .failed _ :: _ => []
  | _ :: t => begun t

/-- The frames completely written. -/
def wroteAll : List (Obs Msg) → List (Frame Msg)
  | [] => []
  | .wrote f :: t => f :: wroteAll t
  | _ :: t => wroteAll t

theorem written_begun (op : Byte) : ∀ t, written op t = (begun t).flatMap (octets op)
  | [] => rfl
  | o :: t => by
    have := written_begun op t
    cases o <;> simp [written, begun, this]

theorem begun_append : ∀ (t u : List (Obs Msg)),
    begun (t ++ u) = begun t ++ if dead t then [] else begun u
  | [], u => by simp [begun, dead]
  | o :: t, u => by
    have := begun_append t u
    cases o <;> cases hd : dead t <;> simp [begun, dead, this, hd]

theorem dead_append : ∀ (t u : List (Obs Msg)), dead (t ++ u) = (dead t || dead u)
  | [], u => by simp [dead]
  | o :: t, u => by
    have := dead_append t u
    cases o <;> simp [dead, this]

theorem wroteAll_append : ∀ (t u : List (Obs Msg)), wroteAll (t ++ u) = wroteAll t ++ wroteAll u
  | [], u => by simp [wroteAll]
  | o :: t, u => by
    have := wroteAll_append t u
    cases o <;> simp [wroteAll, this]

theorem written_prefix (op : Byte) (t u : List (Obs Msg)) :
    written op t <+: written op (t ++ u) := by
  rw [written_begun, written_begun, begun_append, List.flatMap_append]
  exact ⟨_, rfl⟩

theorem told_append : ∀ (t u : List (Obs Msg)), told (t ++ u) = told t ++ told u
  | [], u => by simp [told]
  | o :: t, u => by
    have := told_append t u
    cases o with
    | note n => cases n <;> simp [told, this]
    | _ => simp [told, this]

theorem trace_append (conv : Bool) (is js : List (In Msg)) :
    trace conv (is ++ js) = trace conv is ++ (exec conv (exec conv {} is).1 js).2 := by
  rw [trace, Endpoint.exec_append]; rfl

theorem state_append (conv : Bool) (is js : List (In Msg)) :
    (exec conv {} (is ++ js)).1 = (exec conv (exec conv ({} : St Msg) is).1 js).1 := by
  rw [Endpoint.exec_append]

theorem exec_one (conv : Bool) (s : St Msg) (i : In Msg) :
    exec conv s [i] = Endpoint.step conv s i := by
  simp [exec]

/-- Facts about what one round of the send loop does. -/
theorem loop_flow (s : St Msg) (h : s.inflight = none) :
    begun (loop s).2 = (loop s).1.inflight.toList ∧ wroteAll (loop s).2 = []
      ∧ dead (loop s).2 = false ∧ told (loop s).2 = [] ∧ (loop s).1.broken = s.broken
      ∧ .ub ∉ (loop s).2 ∧ .note .badRequest ∉ (loop s).2 := by
  unfold loop
  cases s.pending <;> cases s.queue <;> simp [St.write, begun, wroteAll, dead, told, h]

theorem start_flow (s : St Msg) (h : s.running = false → s.inflight = none) :
    s.inflight.toList ++ begun (startSendQueue s).2 = (startSendQueue s).1.inflight.toList
      ∧ wroteAll (startSendQueue s).2 = [] ∧ dead (startSendQueue s).2 = false
      ∧ told (startSendQueue s).2 = [] ∧ (startSendQueue s).1.broken = s.broken
      ∧ .ub ∉ (startSendQueue s).2 ∧ .note .badRequest ∉ (startSendQueue s).2 := by
  unfold startSendQueue
  split
  · simp [begun, wroteAll, dead, told]
  · rename_i hn
    have hi : s.inflight = none := h (by
      cases hr : s.running
      · rfl
      · exact absurd (Or.inl hr) hn)
    have := loop_flow { s with running := true } hi
    have e : s.inflight.toList = [] := by rw [hi]; rfl
    rw [e, List.nil_append]
    exact this

theorem handler_flow (s : St Msg) (n : Note Msg) :
    begun (callHandler s n) = [] ∧ wroteAll (callHandler s n) = [] ∧ dead (callHandler s n) = false
      ∧ .ub ∉ callHandler s n := by
  unfold callHandler
  split <;> simp [begun, wroteAll, dead]

/-! ## One input -/

/-- What one input does to an endpoint, as far as it matters here. -/
structure Facts (s : St Msg) (i : In Msg) (s' : St Msg) (obs : List (Obs Msg)) : Prop where
  flow : dead obs = false → s.inflight.toList ++ begun obs = wroteAll obs ++ s'.inflight.toList
  failed : dead obs = true → begun obs = []
  quiet : (∀ m, i ≠ .readMessage m) → told obs = []
  stopped : s.stopped = true → s'.stopped = true
  halt : s'.stopped = true → s.stopped = true ∨ i = .stop
  broken : s.broken = true → s'.broken = true
  sound : (∀ e, i ≠ .writeFailed e) → .ub ∉ obs ∧ dead obs = false ∧ s'.broken = s.broken
  bad : i ≠ .readBad → .note .badRequest ∉ obs
  reading : s'.reading = true → s.reading = true ∨ (i = .start ∧ s.started = false)
  received : s.closeReceived = true → s'.closeReceived = true
  pending : s.pending = .close → s'.pending = .close
  why : s'.pending = .close → s.pending = .close ∨ i = .close ∨ i = .readClose
  close : i = .readClose → s.reading = true → s.broken = false →
    s'.closeReceived = true ∧ s'.reading = false
  asked : i = .close → s.broken = false → s'.pending = .close
  wrote : .close ∈ wroteAll obs → s.closeReceived = true → s.stopped = false → .note .close ∈ obs
  newly : s'.closeReceived = true → s.closeReceived = true ∨ (s'.pending = .close ∧ wroteAll obs = []
    ∧ (s.pending = .close → s.stopped = false → .note .close ∈ obs))
  cause : .note .close ∈ obs → s'.pending = .close ∨ s.inflight = some .close

theorem start_same (s : St Msg) : (startSendQueue s).1.stopped = s.stopped
    ∧ (startSendQueue s).1.reading = s.reading
    ∧ (startSendQueue s).1.closeReceived = s.closeReceived
    ∧ (startSendQueue s).1.pending = s.pending :=
  have h := Endpoint.start_facts s
  ⟨h.2.2.2.2.2.2, h.2.2.2.2.1, h.1, h.2.1⟩

theorem facts_none (s : St Msg) (i : In Msg) (h1 : i = .readClose → s.reading = false ∨ s.broken = true)
    (h2 : i = .close → s.broken = true) : Facts s i s [] where
  flow := by simp [begun, wroteAll]
  failed := by simp [dead]
  quiet := by simp [told]
  stopped := id
  halt := .inl
  broken := id
  sound := by simp [dead]
  bad := by simp
  reading := .inl
  received := id
  pending := id
  why := .inl
  close e hr hb := by rcases h1 e with h | h <;> simp_all
  asked e hb := by rw [h2 e] at hb; cases hb
  wrote := by simp [wroteAll]
  newly := .inl
  cause := by simp

/-- An input that sets something and then starts the send loop. -/
theorem facts_start (s s₁ : St Msg) (i : In Msg) (o : List (Obs Msg))
    (ho : begun o = [] ∧ wroteAll o = [] ∧ dead o = false ∧ told o = [] ∧ .ub ∉ o
      ∧ .note .badRequest ∉ o)
    (hi : s.running = false → s.inflight = none)
    (e : s₁.inflight = s.inflight ∧ s₁.running = s.running ∧ s₁.stopped = s.stopped
      ∧ s₁.broken = s.broken)
    (hr : s₁.reading = true → s.reading = true ∨ (i = .start ∧ s.started = false))
    (hc : s.closeReceived = true → s₁.closeReceived = true)
    (hp : s.pending = .close → s₁.pending = .close)
    (hw : s₁.pending = .close → s.pending = .close ∨ i = .close ∨ i = .readClose)
    (hx : i = .readClose → s₁.closeReceived = true ∧ s₁.reading = false)
    (ha : i = .close → s₁.pending = .close)
    (hn : s₁.closeReceived = true → s.closeReceived = true
      ∨ (s.pending ≠ .close ∧ s₁.pending = .close)) (ho' : .note .close ∉ o) :
    Facts s i (startSendQueue s₁).1 (o ++ (startSendQueue s₁).2) := by
  obtain ⟨h1, h2, h3, h4⟩ := start_same s₁
  obtain ⟨f1, f2, f3, f4, f5, f6, f7⟩ := start_flow s₁ (by rw [e.2.1, e.1]; exact hi)
  obtain ⟨o1, o2, o3, o4, o5, o6⟩ := ho
  constructor
  · intro _
    rw [begun_append, wroteAll_append, o1, o2, o3, f2, ← f1, e.1]; simp
  · intro h; rw [dead_append, o3, f3] at h; cases h
  · intro _; rw [told_append, o4, f4]; rfl
  · intro h; rw [h1, e.2.2.1]; exact h
  · intro h; rw [h1, e.2.2.1] at h; exact .inl h
  · intro h; rw [f5, e.2.2.2]; exact h
  · intro _
    refine ⟨?_, by rw [dead_append, o3, f3]; rfl, by rw [f5, e.2.2.2]⟩
    intro h; rcases List.mem_append.1 h with h | h <;> contradiction
  · intro _ h; rcases List.mem_append.1 h with h | h <;> contradiction
  · intro h; rw [h2] at h; exact hr h
  · intro h; rw [h3]; exact hc h
  · intro h; rw [h4]; exact hp h
  · intro h; rw [h4] at h; exact hw h
  · intro h _ _; rw [h2, h3]; exact hx h
  · intro h _; rw [h4]; exact ha h
  · intro h; rw [wroteAll_append, o2, f2] at h; cases h
  · intro h; rw [h3] at h
    refine (hn h).imp id fun h => ⟨by rw [h4]; exact h.2, by rw [wroteAll_append, o2, f2]; rfl,
      fun h' => absurd h' h.1⟩
  · intro h
    rcases List.mem_append.1 h with h | h
    · exact absurd h ho'
    · exact absurd h (by
        unfold startSendQueue; split
        · simp
        · unfold loop; cases s₁.pending <;> cases s₁.queue <;> simp [St.write])

/-- An input that only sets something and tells something. -/
theorem facts_plain (s s₁ : St Msg) (i : In Msg) (o : List (Obs Msg))
    (ho : begun o = [] ∧ wroteAll o = [] ∧ dead o = false ∧ .ub ∉ o)
    (ht : (∀ m, i ≠ .readMessage m) → told o = [])
    (hb : i ≠ .readBad → .note .badRequest ∉ o)
    (e : s₁.inflight = s.inflight ∧ s₁.broken = s.broken)
    (hs : (s.stopped = true → s₁.stopped = true) ∧ (s₁.stopped = true → s.stopped = true ∨ i = .stop))
    (hr : s₁.reading = true → s.reading = true ∨ (i = .start ∧ s.started = false))
    (hc : s.closeReceived = true → s₁.closeReceived = true)
    (hp : s.pending = .close → s₁.pending = .close)
    (hw : s₁.pending = .close → s.pending = .close ∨ i = .close ∨ i = .readClose)
    (hx : i = .readClose → s₁.closeReceived = true ∧ s₁.reading = false)
    (ha : i ≠ .close)
    (hn : s₁.closeReceived = true → s.closeReceived = true ∨ (s₁.pending = .close
      ∧ (s.pending = .close → s.stopped = false → .note .close ∈ o)))
    (hcs : .note .close ∈ o → s₁.pending = .close) :
    Facts s i s₁ o := by
  obtain ⟨o1, o2, o3, o4⟩ := ho
  exact ⟨fun _ => by rw [o1, o2, e.1]; simp, fun h => by (rw [o3] at h; cases h), ht, hs.1, hs.2,
    fun h => by rw [e.2]; exact h, fun _ => ⟨o4, o3, e.2⟩, hb, hr, hc, hp, hw,
    fun h _ _ => hx h, fun h => absurd h ha, fun h => by (rw [o2] at h; cases h),
    fun h => (hn h).imp id fun h => ⟨h.1, o2, h.2⟩, fun h => .inl (hcs h)⟩

theorem step_facts (conv : Bool) (s : St Msg) (hs : SInv s) (i : In Msg) :
    Facts s i (Endpoint.step conv s i).1 (Endpoint.step conv s i).2 := by
  unfold Endpoint.step
  by_cases hb : s.broken
  · rw [if_pos hb]
    exact facts_none s i (fun _ => .inr hb) (fun _ => hb)
  rw [if_neg hb]
  cases i with
  | send m =>
    exact facts_start s { s with queue := s.queue ++ [m] } (.send m) [.accepted m]
      (by simp [begun, wroteAll, dead, told]) hs.idle ⟨rfl, rfl, rfl, rfl⟩ .inl id id .inl
      (by simp) (by simp) .inl (by simp)
  | close =>
    exact facts_start s { s with pending := .close } .close [.closeRequested]
      (by simp [begun, wroteAll, dead, told]) hs.idle ⟨rfl, rfl, rfl, rfl⟩ .inl id (fun _ => rfl)
      (fun _ => .inr (.inl rfl)) (by simp) (fun _ => rfl) .inl (by simp)
  | start =>
    by_cases hc : ¬ s.started ∧ ¬ s.stopped
    · simp only [if_pos hc]
      have hst : s.started = false := by simpa using hc.1
      split
      · exact facts_start s { s with started := true, reading := true } .start []
          (by simp [begun, wroteAll, dead, told]) hs.idle ⟨rfl, rfl, rfl, rfl⟩
          (fun _ => .inr ⟨rfl, hst⟩) id id .inl (by simp) (by simp) .inl (by simp)
      · exact facts_plain s { s with started := true, reading := true } .start []
          (by simp [begun, wroteAll, dead]) (by simp [told]) (by simp) ⟨rfl, rfl⟩ ⟨id, .inl⟩
          (fun _ => .inr ⟨rfl, hst⟩) id id .inl (by simp) (by simp) .inl (by simp)
    · simp only [if_neg hc]
      exact facts_none s _ (by simp) (by simp)
  | stop =>
    exact facts_plain s { s with stopped := true } .stop [.stopped] (by simp [begun, wroteAll, dead])
      (by simp [told]) (by simp) ⟨rfl, rfl⟩ ⟨fun _ => rfl, fun _ => .inr rfl⟩ .inl id id .inl (by simp)
      (by simp) .inl (by simp)
  | wrote =>
    cases hi : s.inflight with
    | none => exact facts_none s _ (by simp) (by simp)
    | some f =>
      cases f with
      | data m =>
        have hl := loop_flow { s with inflight := none, queue := s.queue.tail } rfl
        have hf := Endpoint.loop_facts { s with inflight := none, queue := s.queue.tail }
        simp only [Endpoint.onWrote]
        have hn : .note .close ∉ (loop { s with inflight := none, queue := s.queue.tail }).2 := by
          unfold loop; cases s.pending <;> cases s.queue.tail <;> simp [St.write]
        generalize loop { s with inflight := none, queue := s.queue.tail } = r at hl hf hn ⊢
        obtain ⟨f1, f2, f3, f4, f5, f6, f7⟩ := hl
        obtain ⟨g1, g2, -, -, g5, -, g7⟩ := hf
        constructor <;> simp_all [begun, wroteAll, dead, told]
      | close =>
        simp only [Endpoint.onWrote]
        by_cases hc : s.closeReceived
        · have hh := handler_flow { s with inflight := none } .close
          have hst : s.stopped = false →
              .note .close ∈ callHandler { s with inflight := none } (Note.close : Note Msg) := by
            intro h; simp [callHandler, h]
          have ht : told (callHandler { s with inflight := none } (Note.close : Note Msg)) = [] := by
            unfold callHandler; split <;> rfl
          have hbad : .note .badRequest ∉ callHandler { s with inflight := none } (Note.close : Note Msg) := by
            unfold callHandler; split <;> simp
          generalize callHandler { s with inflight := none } (Note.close : Note Msg) = o at hh ht hbad hst
          constructor <;> simp_all [begun, wroteAll, dead, told]
        · constructor <;> simp_all [begun, wroteAll, dead, told]
      | pong => exact absurd hi hs.pong
  | writeFailed e =>
    cases hi : s.inflight with
    | none => exact facts_none s _ (by simp) (by simp)
    | some f =>
      cases f with
      | data m =>
        simp only [Endpoint.onWriteFailed]
        obtain ⟨n, hn, h1, h2⟩ : ∃ n : Note Msg, n = (if conv = true ∧ s.pending = .close
            ∧ e = .dropped then Note.close else .error e) ∧ told [.note n] = [] ∧ n ≠ .badRequest :=
          ⟨_, rfl, by split <;> rfl, by split <;> simp⟩
        rw [← hn]
        have hh := handler_flow { s with inflight := none, running := false } n
        have ht : told (callHandler { s with inflight := none, running := false } n) = [] := by
          unfold callHandler; split
          · rfl
          · exact h1
        have hbad : .note .badRequest ∉ callHandler { s with inflight := none, running := false } n := by
          unfold callHandler; split
          · simp
          · simpa using Ne.symm h2
        have hcl : .note .close ∈ callHandler { s with inflight := none, running := false } n →
            s.pending = .close := by
          unfold callHandler; split
          · simp
          · intro h
            have : n = .close := by simpa [eq_comm] using h
            rw [this] at hn
            split at hn
            · rename_i h; exact h.2.1
            · cases hn
        clear hn h1
        generalize callHandler { s with inflight := none, running := false } n = o at hh ht hbad hcl ⊢
        constructor <;> simp_all [begun, wroteAll, dead, told]
      | close => constructor <;> simp_all [Endpoint.onWriteFailed, begun, wroteAll, dead, told]
      | pong => exact absurd hi hs.pong
  | readMessage m =>
    by_cases hr : s.reading
    · simp only [if_pos hr, Endpoint.onRead]
      have hh := handler_flow s (.message m)
      exact facts_plain s s _ _
        ⟨by simpa [begun] using hh.1, by simpa [wroteAll] using hh.2.1, by simpa [dead] using hh.2.2.1,
          by simpa using hh.2.2.2⟩ (fun h => absurd rfl (h m))
        (by unfold callHandler; split <;> simp) ⟨rfl, rfl⟩ ⟨id, .inl⟩ .inl id id .inl (by simp) (by simp)
        .inl (by unfold callHandler; split <;> simp)
    · simp only [if_neg hr]
      exact facts_none s _ (by simp) (by simp)
  | readClose =>
    by_cases hr : s.reading
    · simp only [if_pos hr, Endpoint.onRead]
      split
      · rename_i hp
        have hh := handler_flow { s with closeReceived := true, reading := false } .close
        exact facts_plain s { s with closeReceived := true, reading := false } _ _
          ⟨by simpa [begun] using hh.1, by simpa [wroteAll] using hh.2.1,
            by simpa [dead] using hh.2.2.1, by simpa using hh.2.2.2⟩
          (fun _ => by unfold callHandler; split <;> rfl)
          (by unfold callHandler; split <;> simp) ⟨rfl, rfl⟩ ⟨id, .inl⟩ (by simp) (fun _ => rfl)
          id .inl (fun _ => ⟨rfl, rfl⟩) (by simp)
          (fun _ => .inr ⟨hp, fun _ hs => by simp [callHandler, hs]⟩) (fun _ => hp)
      · exact facts_start s { s with closeReceived := true, reading := false, pending := .close }
          .readClose [.received .readClose]
          (by simp [begun, wroteAll, dead, told]) hs.idle ⟨rfl, rfl, rfl, rfl⟩ (by simp)
          (fun _ => rfl) (fun _ => rfl) (fun _ => .inr (.inr rfl)) (fun _ => ⟨rfl, rfl⟩) (by simp)
          (fun _ => .inr ⟨by assumption, rfl⟩) (by simp)
    · simp only [if_neg hr]
      exact facts_none s _ (fun _ => .inl (by simpa using hr)) (by simp)
  | readPing =>
    by_cases hr : s.reading
    · simp only [if_pos hr, Endpoint.onRead]
      exact facts_plain s { s with pending := Endpoint.toPong s.pending } _ _
        (by simp [begun, wroteAll, dead]) (by simp [told]) (by simp) ⟨rfl, rfl⟩ ⟨id, .inl⟩ .inl id
        (fun h => by simp [h, Endpoint.toPong])
        (fun h => by
          refine .inl ?_
          cases hp : s.pending <;> simp_all [Endpoint.toPong]) (by simp) (by simp) .inl (by simp)
    · simp only [if_neg hr]
      exact facts_none s _ (by simp) (by simp)
  | readPong =>
    by_cases hr : s.reading
    · simp only [if_pos hr, Endpoint.onRead]
      exact facts_plain s s _ _
        (by simp [begun, wroteAll, dead]) (by simp [told]) (by simp) ⟨rfl, rfl⟩ ⟨id, .inl⟩ .inl id
        id .inl (by simp) (by simp) .inl (by simp)
    · simp only [if_neg hr]
      exact facts_none s _ (by simp) (by simp)
  | readBad =>
    by_cases hr : s.reading
    · simp only [if_pos hr, Endpoint.onRead]
      have hh := handler_flow s .badRequest
      exact facts_plain s { s with reading := false } _ _
        ⟨by simpa [begun] using hh.1, by simpa [wroteAll] using hh.2.1, by simpa [dead] using hh.2.2.1,
          by simpa using hh.2.2.2⟩ (fun _ => by unfold callHandler; split <;> rfl)
        (fun h => absurd rfl h) ⟨rfl, rfl⟩ ⟨id, .inl⟩ (by simp) id id .inl (by simp) (by simp)
        .inl (by unfold callHandler; split <;> simp)
    · simp only [if_neg hr]
      exact facts_none s _ (by simp) (by simp)
  | readError e =>
    by_cases hr : s.reading
    · simp only [if_pos hr, Endpoint.onRead]
      have hh := handler_flow s (.error e)
      exact facts_plain s { s with reading := false } _ _
        ⟨by simpa [begun] using hh.1, by simpa [wroteAll] using hh.2.1, by simpa [dead] using hh.2.2.1,
          by simpa using hh.2.2.2⟩ (fun _ => by unfold callHandler; split <;> rfl)
        (by unfold callHandler; split <;> simp) ⟨rfl, rfl⟩ ⟨id, .inl⟩ (by simp) id id .inl (by simp)
        (by simp)
        .inl (by unfold callHandler; split <;> simp)
    · simp only [if_neg hr]
      exact facts_none s _ (by simp) (by simp)

/-! ## The frames of a side -/

/-- The messages among frames. -/
def dataOf (fs : List (Frame Msg)) : List Msg :=
  fs.filterMap fun | .data m => some m | _ => none

theorem dataOf_wrote : ∀ t : List (Obs Msg), dataOf (wroteAll t) = Endpoint.Spec.written t
  | [] => rfl
  | o :: t => by
    have := dataOf_wrote t
    cases o with
    | wrote f => cases f <;> simp_all [dataOf, wroteAll, Endpoint.Spec.written]
    | _ => simp_all [dataOf, wroteAll, Endpoint.Spec.written]

theorem wire_of : ∀ fs : List (Frame Msg), fs.Pairwise (fun a _ => a ≠ .close) → .pong ∉ fs →
    ∃ cl, fs = wire (dataOf fs) cl ∧ (cl = true ↔ .close ∈ fs)
  | [], _, _ => ⟨false, rfl, by simp⟩
  | f :: fs, hp, hn => by
    obtain ⟨h1, h2⟩ := List.pairwise_cons.1 hp
    obtain ⟨cl, e, h⟩ := wire_of fs h2 (fun h => hn (by simp [h]))
    cases f with
    | data m =>
      refine ⟨cl, ?_, by simp [h]⟩
      have : wire (dataOf (.data m :: fs)) cl = .data m :: wire (dataOf fs) cl := by
        simp [wire, dataOf]
      rw [this, ← e]
    | close =>
      cases fs with
      | nil => exact ⟨true, rfl, by simp⟩
      | cons g gs => exact absurd rfl (h1 g (by simp))
    | pong => simp at hn

theorem mem_begun : ∀ (t : List (Obs Msg)) (f : Frame Msg), f ∈ begun t → .begin f ∈ t
  | [], f, h => by simp [begun] at h
  | o :: t, f, h => by
    have := mem_begun t f
    cases o <;> simp_all [begun]
    exact h.imp id this

theorem begun_mem : ∀ (t : List (Obs Msg)) (f : Frame Msg), dead t = false → .begin f ∈ t → f ∈ begun t
  | [], f, _, h => by simp at h
  | o :: t, f, hd, h => by
    have := begun_mem t f
    cases o <;> simp_all [begun, dead]
    exact h.imp id this

theorem begun_pairwise : ∀ t : List (Obs Msg), Endpoint.NoneAfterClose t →
    (begun t).Pairwise (fun a _ => a ≠ .close)
  | [], _ => .nil
  | o :: t, h => by
    obtain ⟨h1, h2⟩ := List.pairwise_cons.1 h
    have := begun_pairwise t h2
    cases o with
    | begin f =>
      refine List.pairwise_cons.2 ⟨fun g hg e => ?_, this⟩
      exact h1 _ (mem_begun t g hg) (by rw [e]) g rfl
    | failed f => exact .nil
    | _ => exact this

/-- What is known of a reachable state and its trace. -/
structure Shape (s : St Msg) (t : List (Obs Msg)) : Prop where
  sinv : SInv s
  inv : Endpoint.Inv s t
  flow : dead t = false → begun t = wroteAll t ++ s.inflight.toList
  data : dataOf (begun t) <+: Endpoint.Spec.accepted t
  recv : s.closeReceived = true → s.pending = .close
  told : dead t = false → s.closeReceived = true → s.stopped = false →
    .note .close ∈ t ∨ s.inflight = some .close ∨ .begin .close ∉ t

theorem shape_step (conv : Bool) (s : St Msg) (t : List (Obs Msg)) (h : Shape s t) (i : In Msg) :
    Shape (Endpoint.step conv s i).1 (t ++ (Endpoint.step conv s i).2) := by
  have F := step_facts conv s h.sinv i
  have I := Endpoint.inv_step conv s t h.inv i
  have S := Endpoint.sinv_step conv s h.sinv i
  generalize Endpoint.step conv s i = r at F I S
  obtain ⟨s', u⟩ := r
  have hflow : dead (t ++ u) = false → begun (t ++ u) = wroteAll (t ++ u) ++ s'.inflight.toList := by
    intro hd
    rw [dead_append, Bool.or_eq_false_iff] at hd
    rw [begun_append, wroteAll_append, hd.1, h.flow hd.1]
    simp [List.append_assoc, F.flow hd.2]
  refine ⟨S, I, hflow, ?_, ?_, ?_⟩
  · cases hd : dead (t ++ u) with
    | false =>
      rw [hflow hd, dataOf, List.filterMap_append, ← dataOf, ← dataOf, dataOf_wrote, I.fifo]
      refine (List.prefix_append_right_inj _).2 ?_
      cases hi : s'.inflight with
      | none => simp [dataOf]
      | some f =>
        cases f with
        | data m =>
          have := (I.data m hi).1
          cases hq : s'.queue with
          | nil => simp [hq] at this
          | cons x q =>
            simp only [hq, List.head?_cons, Option.some.injEq] at this
            subst this
            simp [dataOf]
        | close => simp [dataOf]
        | pong => simp [dataOf]
    | true =>
      have : begun (t ++ u) = begun t := by
        rw [begun_append]
        rw [dead_append] at hd
        cases hdt : dead t
        · rw [hdt, Bool.false_or] at hd
          simp [F.failed hd]
        · simp
      rw [this, Endpoint.accepted_append]
      exact h.data.trans (List.prefix_append _ _)
  · intro hc
    rcases F.newly hc with hc | hc
    · exact F.pending (h.recv hc)
    · exact hc.1
  · intro hd hc hs
    have hd' := hd
    rw [dead_append, Bool.or_eq_false_iff] at hd'
    have hs0 : s.stopped = false := by
      cases hh : s.stopped
      · rfl
      · rw [F.stopped hh] at hs; cases hs
    have hl := F.flow hd'.2
    -- the close frame is in flight after the step, or was written in it
    have key : .close ∈ s.inflight.toList ++ begun u → s'.inflight = some .close ∨ .close ∈ wroteAll u := by
      intro hm
      rw [hl] at hm
      rcases List.mem_append.1 hm with hm | hm
      · exact .inr hm
      · exact .inl (by simpa using hm)
    by_cases hold : s.closeReceived = true
    · have fin : .close ∈ s.inflight.toList ++ begun u →
          .note .close ∈ t ++ u ∨ s'.inflight = some .close ∨ .begin .close ∉ t ++ u := by
        intro hm
        rcases key hm with hk | hk
        · exact .inr (.inl hk)
        · exact .inl (List.mem_append.2 (.inr (F.wrote hk hold hs0)))
      rcases h.told hd'.1 hold hs0 with hk | hk | hk
      · exact .inl (by simp [hk])
      · exact fin (by simp [hk])
      · by_cases hb : .begin .close ∈ u
        · exact fin (List.mem_append.2 (.inr (begun_mem u _ hd'.2 hb)))
        · exact .inr (.inr (by simp [hk, hb]))
    · obtain ⟨-, hw, hn⟩ := (F.newly hc).resolve_left hold
      by_cases hp : s.pending = .close
      · exact .inl (List.mem_append.2 (.inr (hn hp hs0)))
      · have hnb : .begin .close ∉ t := fun hb => hp (h.inv.pend hb)
        by_cases hb : .begin .close ∈ u
        · rcases key (List.mem_append.2 (.inr (begun_mem u _ hd'.2 hb))) with hk | hk
          · exact .inr (.inl hk)
          · rw [hw] at hk; cases hk
        · exact .inr (.inr (by simp [hnb, hb]))

theorem shape_exec (conv : Bool) : ∀ (is : List (In Msg)) (s : St Msg) (t : List (Obs Msg)), Shape s t →
    Shape (exec conv s is).1 (t ++ (exec conv s is).2)
  | [], s, t, h => by simpa [exec] using h
  | i :: is, s, t, h => by
    simp only [exec]
    rw [← List.append_assoc]
    exact shape_exec conv is _ _ (shape_step conv s t h i)

theorem shape_init : Shape {} [] :=
  ⟨by constructor <;> simp, Endpoint.inv_init, by simp [begun, wroteAll], by simp [begun, dataOf],
    by simp, by simp⟩

theorem shape (c : Conf) (s : Side) : Shape (s.state c) (s.seen c) := by
  simpa [Side.state, Side.seen, trace] using shape_exec c.conv s.ins {} [] shape_init

/-- The octets of a side are those of a beginning of the messages of its user, and perhaps of a close
frame. -/
theorem out_wire (c : Conf) (s : Side) : ∃ cl, s.out c = (wire (dataOf (begun (s.seen c))) cl).flatMap
    (octets c.op) ∧ (cl = true → (s.state c).pending = .close)
    ∧ (dead (s.seen c) = false → .begin .close ∈ s.seen c → cl = true) := by
  have h := shape c s
  obtain ⟨cl, e, hcl⟩ := wire_of (begun (s.seen c)) (begun_pairwise _ h.inv.after)
    (fun hm => h.inv.nopong' (mem_begun _ _ hm))
  refine ⟨cl, by rw [← e]; exact written_begun _ _, fun hc => ?_, fun hd hb => ?_⟩
  · exact h.inv.pend (mem_begun _ _ (hcl.1 hc))
  · exact hcl.2 (begun_mem _ _ hd hb)

/-- What a reader reports for a beginning of these octets. -/
theorem reports_wire (c : Conf) (hop : c.op = opText ∨ c.op = opBinary) (ms : List Msg) (cl : Bool)
    (got : List Byte) (h : got <+: (wire ms cl).flatMap (octets c.op)) :
    (∃ gs, gs <+: glue 125 [] ms ∧ reports c.hw got = some (gs.map .readMessage))
    ∨ (cl = true ∧ reports c.hw got = some ((glue 125 [] ms).map .readMessage ++ [.readClose])) := by
  have hr := run_wire c.hw c.op hop ms cl
  obtain ⟨h1, h2⟩ := run_prefix c.hw h
  rw [hr] at h1 h2
  by_cases hw : (run c.hw [] got).2 = .waiting
  · left
    obtain ⟨k, hk⟩ : ∃ k, (run c.hw [] got).1 = (((glue 125 [] ms).map Ws.Event.message).take k) :=
      ⟨_, List.prefix_iff_eq_take.1 h1⟩
    refine ⟨(glue 125 [] ms).take k, List.take_prefix _ _, ?_⟩
    unfold reports
    rw [show run c.hw [] got = ((run c.hw [] got).1, (run c.hw [] got).2) from rfl, hw, hk]
    simp [List.map_take, Function.comp_def, eventIn]
  · right
    have := h2 hw
    cases cl with
    | false => rw [← this] at hw; exact absurd rfl hw
    | true =>
      refine ⟨rfl, ?_⟩
      unfold reports
      rw [← this]
      simp [Function.comp_def, eventIn]

theorem close_frame (p : List Byte) (h : p.length < 126) :
    encodeFrame ⟨true, 8, none, p⟩ = 0x88#8 :: BitVec.ofNat 8 p.length :: p := by
  simp [encodeFrame, Ws.Spec.lengthField, h]

/-- The reader does not stop before the last octet. -/
theorem run_before_end (hw : Bool) (op : Byte) (hop : op = opText ∨ op = opBinary) (ms : List Msg)
    (cl : Bool) (got : List Byte) (h : got <+: (wire ms cl).flatMap (octets op))
    (hs : (run hw [] got).2 ≠ .waiting) : got = (wire ms cl).flatMap (octets op) := by
  cases cl with
  | false =>
    have := (run_prefix hw h).2 hs
    rw [run_wire hw op hop] at this
    rw [← this] at hs
    exact absurd rfl hs
  | true =>
    apply Classical.byContradiction
    intro hne
    have e : (wire ms true).flatMap (octets op) = ((ms.map .data).flatMap (octets op) ++ [0x88#8]) ++ [0#8] := by
      simp [wire, close_octets, close_frame]
    have hp : got <+: (ms.map .data).flatMap (octets op) ++ [0x88#8] := by
      rw [e] at h hne
      rcases List.prefix_concat_iff.1 h with h | h
      · exact absurd h hne
      · exact h
    have e0 := run_closing hw op hop ms (some []) (by simp)
    have e1 := run_closing hw op hop ms (some [1#8]) (by simp)
    have p0 : got <+: (ms.map .data).flatMap (octets op) ++ (closing (some [])).flatMap encodeFrame :=
      hp.trans ⟨[0#8], by simp [closing, close_frame]⟩
    have p1 : got <+: (ms.map .data).flatMap (octets op) ++ (closing (some [1#8])).flatMap encodeFrame :=
      hp.trans ⟨[1#8, 1#8], by simp [closing, close_frame]⟩
    rw [(run_prefix hw p0).2 hs] at e0
    rw [(run_prefix hw p1).2 hs, e0] at e1
    simp [stopped] at e1

/-- What is reported for all of them. -/
theorem reports_all (c : Conf) (hop : c.op = opText ∨ c.op = opBinary) (ms : List Msg) (cl : Bool) :
    reports c.hw ((wire ms cl).flatMap (octets c.op))
      = some ((glue 125 [] ms).map .readMessage ++ if cl then [.readClose] else []) := by
  unfold reports
  rw [run_wire c.hw c.op hop ms cl]
  cases cl <;> simp [Function.comp_def, eventIn]

/-- Reports grow. -/
theorem reports_grow (hw : Bool) {s t : List Byte} (h : s <+: t) (x y : List (In Msg))
    (hx : reports hw s = some x) (hy : reports hw t = some y) : x <+: y := by
  obtain ⟨h1, h2⟩ := run_prefix hw h
  unfold reports at hx hy
  by_cases hwt : (run hw [] s).2 = .waiting
  · generalize run hw [] s = r at *
    generalize run hw [] t = q at *
    obtain ⟨es, st⟩ := r
    obtain ⟨fs, st'⟩ := q
    simp only at h1 hwt
    subst hwt
    simp only [Option.some.injEq] at hx
    subst hx
    obtain ⟨k, rfl⟩ := h1
    cases st' <;> simp only [Option.some.injEq, reduceCtorEq] at hy <;> subst hy <;> simp
  · rw [h2 hwt] at hy
    rw [hx] at hy
    cases hy
    exact List.prefix_refl _

/-! ## One side -/

/-- The inputs which come from the reader, but for errors of the connection. -/
def isRead : In Msg → Bool
  | .readMessage _ | .readClose | .readPing | .readPong | .readBad => true
  | _ => false

/-- The messages of inputs. -/
def msgs (is : List (In Msg)) : List Msg :=
  is.filterMap fun | .readMessage m => some m | _ => none

/-- Messages at a reading endpoint. -/
theorem exec_messages (conv : Bool) (s : St Msg) (hr : s.reading = true) : ∀ gs : List Msg,
    (exec conv s (gs.map .readMessage)).1 = s
    ∧ told (exec conv s (gs.map .readMessage)).2
      = (if s.stopped = false ∧ s.broken = false then gs else [])
  | [] => by simp [exec, told]
  | m :: gs => by
    obtain ⟨h1, h2⟩ := exec_messages conv s hr gs
    have e : (Endpoint.step conv s (.readMessage m)).1 = s := by
      unfold Endpoint.step onRead; split <;> simp [hr]
    have t : told (Endpoint.step conv s (.readMessage m)).2
        = (if s.stopped = false ∧ s.broken = false then [m] else []) := by
      unfold Endpoint.step onRead callHandler
      cases s.broken <;> cases s.stopped <;> simp [hr, told]
    simp only [List.map_cons, exec, e]
    refine ⟨h1, ?_⟩
    rw [told_append, t, h2]
    split <;> simp

theorem messages_notes (conv : Bool) (s : St Msg) (n : Note Msg) (hn : ∀ m, n ≠ .message m) :
    ∀ gs : List Msg, s.reading = true → .note n ∉ (exec conv s (gs.map .readMessage)).2
  | [], _ => by simp [exec]
  | m :: gs, hr => by
    have e : (Endpoint.step conv s (.readMessage m)).1 = s := by
      unfold Endpoint.step onRead; split <;> simp [hr]
    have t : .note n ∉ (Endpoint.step conv s (.readMessage m)).2 := by
      have := hn m
      unfold Endpoint.step onRead callHandler
      cases s.broken <;> cases s.stopped <;> simp [hr, this]
    simp only [List.map_cons, exec, e]
    intro h
    rcases List.mem_append.1 h with h | h
    · exact t h
    · exact messages_notes conv s n hn gs hr h

/-- What is always true of a side `me` and its peer. -/
structure Inv (c : Conf) (me peer : Side) : Prop where
  got : me.got <+: peer.out c
  rep : reports c.hw me.got = some (me.ins.filter isRead)
  told : handedTo c me <+: msgs me.ins
  all : (me.state c).stopped = false → (me.state c).broken = false → handedTo c me = msgs me.ins
  recv : (me.state c).broken = false → In.readClose ∈ me.ins → (me.state c).closeReceived = true
  bad : .note .badRequest ∉ me.seen c

/-- A side after one more input. -/
theorem one_more (c : Conf) (ins : List (In Msg)) (got : List Byte) (i : In Msg) :
    Side.seen c ⟨ins ++ [i], got⟩ = Side.seen c ⟨ins, got⟩
        ++ (Endpoint.step c.conv (Side.state c ⟨ins, got⟩) i).2
      ∧ Side.state c ⟨ins ++ [i], got⟩ = (Endpoint.step c.conv (Side.state c ⟨ins, got⟩) i).1 := by
  simp only [Side.seen, Side.state, trace_append, state_append, exec_one, and_self]

theorem out_grows (c : Conf) (ins is : List (In Msg)) (got got' : List Byte) :
    Side.out c ⟨ins, got⟩ <+: Side.out c ⟨ins ++ is, got'⟩ := by
  simp only [Side.out, Side.seen, trace_append]
  exact written_prefix _ _ _

theorem Inv.peer {c : Conf} {me peer peer' : Side} (h : Inv c me peer)
    (hp : peer.out c <+: peer'.out c) : Inv c me peer' :=
  ⟨h.got.trans hp, h.rep, h.told, h.all, h.recv, h.bad⟩

/-- An input which is not a report of the reader. -/
theorem inv_one {c : Conf} {me peer : Side} (h : Inv c me peer) (i : In Msg) (hi : isRead i = false) :
    Inv c { me with ins := me.ins ++ [i] } peer := by
  obtain ⟨ins, got⟩ := me
  have F := step_facts c.conv _ (shape c ⟨ins, got⟩).sinv i
  obtain ⟨e1, e2⟩ := one_more c ins got i
  have hnm : ∀ m, i ≠ .readMessage m := by rintro m rfl; cases hi
  have hm : msgs (ins ++ [i]) = msgs ins := by
    cases i <;> simp [msgs, isRead] at hi ⊢
  have hb : i ≠ .readBad := by rintro rfl; cases hi
  have hc : i ≠ .readClose := by rintro rfl; cases hi
  have ht : handedTo c ⟨ins ++ [i], got⟩ = handedTo c ⟨ins, got⟩ := by
    simp only [handedTo]
    rw [e1, told_append, F.quiet hnm, List.append_nil]
  have nb : (Side.state c ⟨ins ++ [i], got⟩).broken = false → (Side.state c ⟨ins, got⟩).broken = false := by
    rw [e2]; intro h'
    cases hh : (Side.state c ⟨ins, got⟩).broken
    · rfl
    · rw [F.broken hh] at h'; cases h'
  refine ⟨h.got, ?_, ?_, ?_, ?_, ?_⟩
  · simpa [List.filter_append, hi] using h.rep
  · simp only [ht, hm]; exact h.told
  · intro h1 h2
    simp only [ht, hm]
    refine h.all ?_ (nb h2)
    rw [e2] at h1
    cases hh : (Side.state c ⟨ins, got⟩).stopped
    · rfl
    · rw [F.stopped hh] at h1; cases h1
  · intro h1 h2
    rw [e2]
    refine F.received (h.recv (nb h1) ?_)
    rcases List.mem_append.1 h2 with h2 | h2
    · exact h2
    · exact absurd (by simpa [eq_comm] using h2) hc
  · show .note .badRequest ∉ Side.seen c ⟨ins ++ [i], got⟩
    rw [e1]
    intro hm
    rcases List.mem_append.1 hm with hm | hm
    · exact h.bad hm
    · exact F.bad hb hm

/-- The inputs of a reader that reads messages and perhaps a close frame. -/
def feed (gs : List Msg) (b : Bool) : List (In Msg) :=
  gs.map .readMessage ++ if b then [.readClose] else []

theorem feed_filter (gs : List Msg) (b : Bool) : (feed gs b).filter isRead = feed gs b := by
  rw [List.filter_eq_self]
  intro i hi
  rcases List.mem_append.1 hi with hi | hi
  · obtain ⟨m, -, rfl⟩ := List.mem_map.1 hi; rfl
  · cases b <;> simp at hi
    subst hi; rfl

theorem feed_msgs (is : List (In Msg)) (gs : List Msg) (b : Bool) :
    msgs (is ++ feed gs b) = msgs is ++ gs := by
  have h : msgs (gs.map .readMessage) = gs := by
    induction gs with
    | nil => rfl
    | cons g gs ih => simp [msgs] at ih ⊢; exact ih
  simp only [feed, msgs, List.filterMap_append] at h ⊢
  rw [h]
  cases b <;> simp

theorem msgs_feed (gs : List Msg) (b : Bool) : msgs (feed gs b) = gs := by
  simpa [msgs] using feed_msgs [] gs b

theorem msgs_filter : ∀ l : List (In Msg), msgs (l.filter isRead) = msgs l
  | [] => rfl
  | i :: l => by
    have := msgs_filter l
    cases i <;> simp [msgs, isRead, List.filter_cons] at this ⊢ <;> exact this

/-- The rest of a report. -/
theorem feed_drop (x : List (In Msg)) (gs : List Msg) (b : Bool) (h : x <+: feed gs b) :
    ∃ gs' b', (feed gs b).drop x.length = feed gs' b' ∧ (b' = true → b = true) ∧ x ++ feed gs' b' = feed gs b := by
  have key : ∃ gs' b', (feed gs b).drop x.length = feed gs' b' ∧ (b' = true → b = true) := by
    by_cases hl : x.length ≤ gs.length
    · refine ⟨gs.drop x.length, b, ?_, id⟩
      rw [feed, List.drop_append_of_le_length (by simpa using hl), feed, List.map_drop]
    · refine ⟨[], false, ?_, by simp⟩
      have : (feed gs b).length ≤ x.length := by
        cases b <;> simp [feed] <;> omega
      rw [List.drop_eq_nil_of_le this]; rfl
  obtain ⟨gs', b', e, hb⟩ := key
  refine ⟨gs', b', e, hb, ?_⟩
  rw [← e]
  obtain ⟨k, hk⟩ := h
  rw [← hk]; simp

/-- What an arrival does. -/
theorem arrive_form {c : Conf} (hop : c.op = opText ∨ c.op = opBinary) {me peer : Side}
    (h : Inv c me peer) (hr : (me.state c).reading = true) (n : Nat) :
    ∃ gs b, act c me peer (.arrive n) = .ok ⟨me.ins ++ feed gs b,
        me.got ++ ((peer.out c).drop me.got.length).take n⟩
      ∧ me.got ++ ((peer.out c).drop me.got.length).take n <+: peer.out c
      ∧ reports c.hw (me.got ++ ((peer.out c).drop me.got.length).take n)
        = some (me.ins.filter isRead ++ feed gs b)
      ∧ (b = true → (peer.state c).pending = .close) := by
  have hpre : me.got ++ ((peer.out c).drop me.got.length).take n <+: peer.out c := by
    obtain ⟨k, hk⟩ := h.got
    rw [← hk]
    simpa using List.take_prefix n k
  obtain ⟨cl, hout, hcl, -⟩ := out_wire c peer
  have hnew : ∃ gs b, reports c.hw (me.got ++ ((peer.out c).drop me.got.length).take n) = some (feed gs b)
      ∧ (b = true → cl = true) := by
    have := reports_wire c hop _ cl (me.got ++ ((peer.out c).drop me.got.length).take n)
      (by rw [← hout]; exact hpre)
    rcases this with ⟨gs, -, h⟩ | ⟨h1, h2⟩
    · exact ⟨gs, false, by simpa [feed] using h, by simp⟩
    · exact ⟨_, true, by simpa [feed] using h2, fun _ => h1⟩
  obtain ⟨gs, b, hn, hb⟩ := hnew
  have hg := reports_grow c.hw (List.prefix_append me.got _) _ _ h.rep hn
  obtain ⟨gs', b', e, hb', e'⟩ := feed_drop _ gs b hg
  refine ⟨gs', b', ?_, hpre, by rw [hn, e'], fun h => hcl (hb (hb' h))⟩
  simp only [act, if_pos hr, h.rep, hn, e]

theorem inv_arrive {c : Conf} (hop : c.op = opText ∨ c.op = opBinary) {me peer : Side}
    (h : Inv c me peer) (n : Nat) : ∃ me', act c me peer (.arrive n) = .ok me' ∧ Inv c me' peer := by
  by_cases hr : (me.state c).reading = true
  · obtain ⟨gs, b, e, hpre, hrep, -⟩ := arrive_form hop h hr n
    refine ⟨_, e, ?_⟩
    generalize me.got ++ ((peer.out c).drop me.got.length).take n = got' at hpre hrep
    obtain ⟨ins, got⟩ := me
    -- the messages
    have hm := exec_messages c.conv (Side.state c ⟨ins, got⟩) hr gs
    have e1 : Side.state c ⟨ins ++ gs.map .readMessage, got'⟩ = Side.state c ⟨ins, got⟩ := by
      simp only [Side.state, state_append]; exact hm.1
    have e2 : handedTo c ⟨ins ++ gs.map .readMessage, got'⟩ = handedTo c ⟨ins, got⟩
        ++ (if (Side.state c ⟨ins, got⟩).stopped = false ∧ (Side.state c ⟨ins, got⟩).broken = false
          then gs else []) := by
      simp only [handedTo, Side.seen, trace_append, told_append]
      rw [← hm.2]; rfl
    have e3 : .note .badRequest ∉ Side.seen c ⟨ins ++ gs.map .readMessage, got'⟩ := by
      simp only [Side.seen, trace_append]
      intro hb
      rcases List.mem_append.1 hb with hb | hb
      · exact h.bad hb
      · exact messages_notes c.conv _ _ (by simp) gs hr hb
    have hmm : msgs (ins ++ gs.map .readMessage) = msgs ins ++ gs := by
      simpa [feed] using feed_msgs ins gs false
    have told₁ : handedTo c ⟨ins ++ gs.map .readMessage, got'⟩ <+: msgs ins ++ gs := by
      rw [e2]
      split
      · rename_i hh
        rw [h.all hh.1 hh.2]
        exact List.prefix_refl _
      · rw [List.append_nil]
        exact h.told.trans (List.prefix_append _ _)
    have all₁ : (Side.state c ⟨ins, got⟩).stopped = false → (Side.state c ⟨ins, got⟩).broken = false →
        handedTo c ⟨ins ++ gs.map .readMessage, got'⟩ = msgs ins ++ gs := by
      intro h1 h2
      rw [e2, if_pos ⟨h1, h2⟩, h.all h1 h2]
    cases b with
    | false =>
      have ee : ins ++ feed gs false = ins ++ gs.map .readMessage := by simp [feed]
      refine ⟨hpre, ?_, ?_, ?_, ?_, ?_⟩
      · rw [hrep, List.filter_append, feed_filter]
      · simp only [feed_msgs]; rw [ee]; exact told₁
      · simp only [feed_msgs]; rw [ee, e1]; exact all₁
      · rw [ee, e1]; intro h1 h2
        refine h.recv h1 ?_
        simpa using h2
      · rw [ee]; exact e3
    | true =>
      have ee : ins ++ feed gs true = (ins ++ gs.map .readMessage) ++ [.readClose] := by simp [feed]
      have F := step_facts c.conv _ (shape c ⟨ins ++ gs.map .readMessage, got'⟩).sinv .readClose
      obtain ⟨o1, o2⟩ := one_more c (ins ++ gs.map .readMessage) got' .readClose
      have ht : handedTo c ⟨(ins ++ gs.map .readMessage) ++ [.readClose], got'⟩
          = handedTo c ⟨ins ++ gs.map .readMessage, got'⟩ := by
        simp only [handedTo]
        rw [o1, told_append, F.quiet (by simp), List.append_nil]
      refine ⟨hpre, ?_, ?_, ?_, ?_, ?_⟩
      · rw [hrep, List.filter_append, feed_filter]
      · simp only [feed_msgs]; rw [ee, ht]; exact told₁
      · simp only [feed_msgs]; rw [ee, ht, o2]
        intro h1 h2
        refine all₁ ?_ ?_
        · rw [← e1]
          cases hh : (Side.state c ⟨ins ++ gs.map .readMessage, got'⟩).stopped
          · rfl
          · rw [F.stopped hh] at h1; cases h1
        · rw [← e1]
          cases hh : (Side.state c ⟨ins ++ gs.map .readMessage, got'⟩).broken
          · rfl
          · rw [F.broken hh] at h2; cases h2
      · rw [ee, o2]; intro h1 _
        refine (F.close rfl (by rw [e1]; exact hr) ?_).1
        cases hh : (Side.state c ⟨ins ++ gs.map .readMessage, got'⟩).broken
        · rfl
        · rw [F.broken hh] at h1; cases h1
      · rw [ee, o1]
        intro hm
        rcases List.mem_append.1 hm with hm | hm
        · exact e3 hm
        · exact F.bad (by simp) hm
  · exact ⟨me, by simp [act, hr], h⟩

/-! ## Inputs of a side -/

theorem exec_induct (conv : Bool) (P : List (In Msg) → St Msg → List (Obs Msg) → Prop) (h0 : P [] {} [])
    (hs : ∀ ins s t i, Shape s t → P ins s t →
      P (ins ++ [i]) (Endpoint.step conv s i).1 (t ++ (Endpoint.step conv s i).2)) :
    ∀ ins, P ins (exec conv {} ins).1 (trace conv ins) := by
  have key : ∀ (is : List (In Msg)) (ins : List (In Msg)) (s : St Msg) (t : List (Obs Msg)), Shape s t →
      P ins s t → P (ins ++ is) (exec conv s is).1 (t ++ (exec conv s is).2) := by
    intro is
    induction is with
    | nil => intro ins s t _ h; simpa [exec] using h
    | cons i is ih =>
      intro ins s t h hp
      have := ih (ins ++ [i]) _ _ (shape_step conv s t h i) (hs ins s t i h hp)
      simpa [exec, List.append_assoc] using this
  intro ins
  simpa [trace] using key ins [] {} [] shape_init h0

/-- No write of the side failed. -/
def NoFail (s : Side) : Prop := ∀ e, In.writeFailed e ∉ s.ins

theorem noFail (c : Conf) (s : Side) (h : NoFail s) :
    .ub ∉ s.seen c ∧ dead (s.seen c) = false ∧ (s.state c).broken = false := by
  refine exec_induct c.conv (fun ins st t => (∀ e, In.writeFailed e ∉ ins) →
    .ub ∉ t ∧ dead t = false ∧ st.broken = false) (by simp [dead]) ?_ s.ins h
  intro ins st t i hsh ih hn
  obtain ⟨h1, h2, h3⟩ := ih (fun e he => hn e (by simp [he]))
  obtain ⟨f1, f2, f3⟩ := (step_facts c.conv st hsh.sinv i).sound (by rintro e rfl; exact hn e (by simp))
  refine ⟨?_, by rw [dead_append, h2, f2]; rfl, by rw [f3, h3]⟩
  intro hm
  rcases List.mem_append.1 hm with hm | hm <;> contradiction

theorem notStopped (c : Conf) (s : Side) (h : In.stop ∉ s.ins) : (s.state c).stopped = false := by
  refine exec_induct c.conv (fun ins st _ => In.stop ∉ ins → st.stopped = false) (by simp) ?_ s.ins h
  intro ins st t i hsh ih hn
  cases hh : (Endpoint.step c.conv st i).1.stopped with
  | false => rfl
  | true =>
    rcases (step_facts c.conv st hsh.sinv i).halt hh with h | h
    · rw [ih (fun he => hn (by simp [he]))] at h; cases h
    · exact absurd (by simp [h]) hn

theorem askedClose (c : Conf) (s : Side) (h : In.close ∈ s.ins) (hb : (s.state c).broken = false) :
    (s.state c).pending = .close := by
  refine exec_induct c.conv (fun ins st _ => In.close ∈ ins → st.broken = false → st.pending = .close)
    (by simp) ?_ s.ins h hb
  intro ins st t i hsh ih hm hb
  have F := step_facts c.conv st hsh.sinv i
  have hb' : st.broken = false := by
    cases hh : st.broken
    · rfl
    · rw [F.broken hh] at hb; cases hb
  rcases List.mem_append.1 hm with hm | hm
  · exact F.pending (ih hm hb')
  · exact F.asked (by simpa [eq_comm] using hm) hb'

/-- Nobody has to do with closing. -/
def Calm (c : Conf) (s : Side) : Prop := (s.state c).pending ≠ .close ∧ .note .close ∉ s.seen c

theorem calm_one {c : Conf} {ins : List (In Msg)} {got : List Byte} (h : Calm c ⟨ins, got⟩) (i : In Msg)
    (h1 : i ≠ .close) (h2 : i ≠ .readClose) : Calm c ⟨ins ++ [i], got⟩ := by
  have S := shape c ⟨ins, got⟩
  have F := step_facts c.conv _ S.sinv i
  obtain ⟨e1, e2⟩ := one_more c ins got i
  have hp : (Side.state c ⟨ins ++ [i], got⟩).pending ≠ .close := by
    rw [e2]; intro hp
    rcases F.why hp with hp | hp | hp
    · exact h.1 hp
    · exact h1 hp
    · exact h2 hp
  refine ⟨hp, ?_⟩
  rw [e1]
  intro hm
  rcases List.mem_append.1 hm with hm | hm
  · exact h.2 hm
  · rcases F.cause hm with hc | hc
    · exact hp (by rw [e2]; exact hc)
    · exact h.1 (S.inv.pend (S.inv.closef hc))

theorem calm_messages {c : Conf} {ins : List (In Msg)} {got got' : List Byte} (h : Calm c ⟨ins, got⟩)
    (hr : (Side.state c ⟨ins, got⟩).reading = true) (gs : List Msg) :
    Calm c ⟨ins ++ gs.map .readMessage, got'⟩ := by
  refine ⟨?_, ?_⟩
  · have : Side.state c ⟨ins ++ gs.map .readMessage, got'⟩ = Side.state c ⟨ins, got⟩ := by
      simp only [Side.state, state_append]
      exact (exec_messages c.conv _ hr gs).1
    rw [this]; exact h.1
  · simp only [Side.seen, trace_append]
    intro hm
    rcases List.mem_append.1 hm with hm | hm
    · exact h.2 hm
    · exact messages_notes c.conv _ _ (by simp) gs hr hm

/-! ## Both sides -/

/-- What is always true of two sides `me` and `peer`. -/
structure Pair (c : Conf) (me peer : Side) : Prop where
  mine : Inv c me peer
  yours : Inv c peer me
  calm : In.close ∉ me.ins → In.close ∉ peer.ins → Calm c me ∧ Calm c peer

theorem Pair.symm {c : Conf} {me peer : Side} (h : Pair c me peer) : Pair c peer me :=
  ⟨h.yours, h.mine, fun h1 h2 => (h.calm h2 h1).symm⟩

theorem pair_one {c : Conf} {me peer : Side} (h : Pair c me peer) (i : In Msg) (hi : isRead i = false) :
    Pair c { me with ins := me.ins ++ [i] } peer := by
  refine ⟨inv_one h.mine i hi, h.yours.peer (out_grows c _ _ _ _), fun h1 h2 => ?_⟩
  have hc := h.calm (fun hm => h1 (by simp [hm])) h2
  exact ⟨calm_one hc.1 i (by rintro rfl; simp at h1) (by rintro rfl; cases hi), hc.2⟩

theorem pair_act {c : Conf} (hop : c.op = opText ∨ c.op = opBinary) {me peer : Side}
    (h : Pair c me peer) (x : Act) : ∃ me', act c me peer x = .ok me' ∧ Pair c me' peer
      ∧ ((∀ e, x ≠ .writeFailed e) → NoFail me → NoFail me') := by
  have one : ∀ i, isRead i = false → (∀ e, i ≠ .writeFailed e) →
      Pair c { me with ins := me.ins ++ [i] } peer
      ∧ (NoFail me → NoFail { me with ins := me.ins ++ [i] }) := by
    intro i hi hf
    refine ⟨pair_one h i hi, fun hn e hm => ?_⟩
    rcases List.mem_append.1 hm with hm | hm
    · exact hn e hm
    · exact hf e (by simpa [eq_comm] using hm)
  cases x with
  | send m => exact ⟨_, rfl, (one _ rfl (by simp)).1, fun _ => (one _ rfl (by simp)).2⟩
  | close => exact ⟨_, rfl, (one _ rfl (by simp)).1, fun _ => (one _ rfl (by simp)).2⟩
  | start => exact ⟨_, rfl, (one _ rfl (by simp)).1, fun _ => (one _ rfl (by simp)).2⟩
  | stop => exact ⟨_, rfl, (one _ rfl (by simp)).1, fun _ => (one _ rfl (by simp)).2⟩
  | lost e => exact ⟨_, rfl, (one _ rfl (by simp)).1, fun _ => (one _ rfl (by simp)).2⟩
  | wrote =>
    simp only [act]
    split
    · exact ⟨_, rfl, h, fun _ => id⟩
    · exact ⟨_, rfl, (one _ rfl (by simp)).1, fun _ => (one _ rfl (by simp)).2⟩
  | writeFailed e => exact ⟨_, rfl, pair_one h _ rfl, fun h' => absurd rfl (h' e)⟩
  | arrive n =>
    obtain ⟨me', e, hi⟩ := inv_arrive hop h.mine n
    by_cases hr : (me.state c).reading = true
    · obtain ⟨gs, b, e', -, -, hb⟩ := arrive_form hop h.mine hr n
      rw [e] at e'
      cases e'
      refine ⟨_, e, ⟨hi, h.yours.peer (out_grows c _ _ _ _), fun h1 h2 => ?_⟩, fun _ hn e hm => ?_⟩
      · have hc := h.calm (fun hm => h1 (by simp [hm])) h2
        have : b = false := by
          cases hbb : b
          · rfl
          · exact absurd (hb hbb) hc.2.1
        subst this
        refine ⟨?_, hc.2⟩
        have := calm_messages (got' := me.got ++ ((peer.out c).drop me.got.length).take n) hc.1 hr gs
        simpa [feed] using this
      · rcases List.mem_append.1 hm with hm | hm
        · exact hn e hm
        · rcases List.mem_append.1 hm with hm | hm
          · simp at hm
          · cases b <;> simp at hm
    · have : me' = me := by
        simp [act, hr] at e; exact e.symm
      subst this
      exact ⟨_, e, h, fun _ => id⟩

theorem pair_history {c : Conf} (hop : c.op = opText ∨ c.op = opBinary) :
    ∀ (xs : List (Bool × Act)) (n : Net), Pair c n.a n.b → ∃ n', history c n xs = .ok n'
      ∧ Pair c n'.a n'.b ∧ (Sound xs → NoFail n.a → NoFail n.b → NoFail n'.a ∧ NoFail n'.b)
  | [], n, h => ⟨n, rfl, h, fun _ h1 h2 => ⟨h1, h2⟩⟩
  | (true, x) :: xs, n, h => by
    obtain ⟨me, e, hp, hf⟩ := pair_act hop h x
    obtain ⟨n', e', hp', hf'⟩ := pair_history hop xs { n with a := me } hp
    refine ⟨n', by simp [history, step, e, Cpp.map, Cpp.bind, e'], hp', fun hs h1 h2 => ?_⟩
    exact hf' (fun w e hm => hs w e (by simp [hm])) (hf (by rintro e' rfl; exact hs true e' (by simp)) h1) h2
  | (false, x) :: xs, n, h => by
    obtain ⟨me, e, hp, hf⟩ := pair_act hop h.symm x
    obtain ⟨n', e', hp', hf'⟩ := pair_history hop xs { n with b := me } hp.symm
    refine ⟨n', by simp [history, step, e, Cpp.map, Cpp.bind, e'], hp', fun hs h1 h2 => ?_⟩
    exact hf' (fun w e hm => hs w e (by simp [hm])) h1 (hf (by rintro e' rfl; exact hs false e' (by simp)) h2)

theorem pair_talk {c : Conf} (hop : c.op = opText ∨ c.op = opBinary) (xs : List (Bool × Act)) :
    ∃ n, talk c xs = .ok n ∧ Pair c n.a n.b ∧ (Sound xs → NoFail n.a ∧ NoFail n.b) := by
  have h0 : Inv c {} {} := ⟨by simp, reports_all c hop [] false, by simp [handedTo, Side.seen, trace, exec, told],
    by simp [handedTo, Side.seen, trace, exec, told, msgs], by simp, by simp [Side.seen, trace, exec]⟩
  obtain ⟨n, e, hp, hf⟩ := pair_history hop xs {} ⟨h0, h0, fun _ _ => by
    simp [Calm, Side.state, Side.seen, trace, exec]⟩
  exact ⟨n, e, hp, fun hs => hf hs (by simp [NoFail]) (by simp [NoFail])⟩

end Nbdl.Link
