import Verif.App.Lemmas
/-!
C113: programs which are connected by JSON behave as if messages were handed from one to the other.
-/
namespace Nbdl.App
open Nbdl.Bind (Ty Tys Json)
open MapStore (Msg Map Payload)
open Replica (Wire Stores Setup Step fresh)
open Replica.Spec (shows Legal asksOnly settles asked afterJoin)
open Spec
variable {P V : Type} [DecidableEq P]

theorem run_eq {a : App P V} {k : Allowed P V} (h : Fits a k) (hu : Legal a.setup) (hist : List (Step P V))
    (hk : ∀ x ∈ hist, k.step x) : run a start hist = emb a (Replica.run a.setup Replica.start hist) :=
  run_emb h hu hist Replica.start (inv_start k) hk

theorem length_emb (a : App P V) (s : Replica.Sys P V) : (emb a s).clients.length = s.clients.length := by
  simp [emb]

/-- C113, partial: in every history in which the programs apply only messages that fit the
connections, the stores of the server and of every client are those which they would be if the messages
themselves were handed over, and what is on its way are the documents of the messages that would be. -/
theorem same_as_messages_partial (a : App P V) (k : Allowed P V) (h : Fits a k) (hu : Legal a.setup)
    (hist : List (Step P V)) (hk : ∀ x ∈ hist, k.step x) :
    (run a start hist).server = (Replica.run a.setup Replica.start hist).server
    ∧ (run a start hist).clients.length = (Replica.run a.setup Replica.start hist).clients.length
    ∧ ∀ (i : Nat) (c : Replica.Client P V), (Replica.run a.setup Replica.start hist).clients[i]? = some c →
        ∃ d : Client P V, (run a start hist).clients[i]? = some d ∧ d.stores = c.stores ∧ d.registered = c.registered
          ∧ d.inbox = c.inbox.map (writeNative a.downstream) ∧ d.outbox = c.outbox.map a.clientWrites := by
  rw [run_eq h hu hist hk]
  refine ⟨rfl, length_emb _ _, fun i c hc => ⟨embC a c, by simp [emb, hc], rfl, rfl, rfl, rfl⟩⟩

/-- C113, partial: so what a client shows follows the server (C105), if it joined while the server
showed nothing. -/
theorem json_founder_follows_partial (a : App P V) (k : Allowed P V) (h : Fits a k) (hu : Legal a.setup)
    (pre post : List (Step P V)) (hk : ∀ x ∈ pre ++ .join :: post, k.step x)
    (hask : ∀ x ∈ post, asksOnly x = true)
    (h0 : ∀ t p, shows (run a start pre).server t p = none) :
    ∃ f : Nat → Nat, (∀ n, f n ≤ n) ∧ (∀ n, n < post.length → f n ≤ f (n + 1))
      ∧ ∀ n, n ≤ post.length →
        ∃ c, (run a start (afterJoin pre post n)).clients[(run a start pre).clients.length]? = some c
          ∧ (∀ t p, shows c.stores t p = shows (run a start (afterJoin pre post (f n))).server t p)
          ∧ (c.registered = true → c.inbox = [] →
              ∀ t p, shows c.stores t p = shows (run a start (afterJoin pre post n)).server t p) := by
  have hpre : run a start pre = emb a (Replica.run a.setup Replica.start pre) :=
    run_eq h hu pre fun x hx => hk x (by simp [hx])
  have hj : ∀ n, run a start (afterJoin pre post n)
      = emb a (Replica.run a.setup Replica.start (afterJoin pre post n)) := by
    intro n
    refine run_eq h hu _ fun x hx => hk x ?_
    simp only [afterJoin, List.mem_append, List.mem_cons] at hx ⊢
    rcases hx with hx | hx | hx
    · exact .inl hx
    · exact .inr (.inl hx)
    · exact .inr (.inr (List.mem_of_mem_take hx))
  rw [hpre] at h0 ⊢
  obtain ⟨f, h1, h2, h3⟩ := Replica.founder_follows_partial a.setup hu pre post hask h0
  refine ⟨f, h1, h2, fun n hn => ?_⟩
  obtain ⟨c, hc, h4, h5⟩ := h3 n hn
  rw [hj n, hj (f n), length_emb]
  exact ⟨embC a c, by simp [emb, hc], h4, fun hr hi => h5 hr (by simpa [embC] using hi)⟩

/-- C113, partial: also a client which joins later shows what the server shows at every path that has
been created, updated or deleted since, once it has read what was sent to it. -/
theorem json_settled_paths_agree_partial (a : App P V) (k : Allowed P V) (h : Fits a k) (hu : Legal a.setup)
    (pre post : List (Step P V)) (hk : ∀ x ∈ pre ++ .join :: post, k.step x)
    (hask : ∀ x ∈ post, asksOnly x = true) (t : Nat) (p : P) (hs : ∃ x ∈ post, settles t p x) :
    ∃ c, (run a start (pre ++ .join :: post)).clients[(run a start pre).clients.length]? = some c
      ∧ (c.registered = true → c.inbox = [] →
          shows c.stores t p = shows (run a start (pre ++ .join :: post)).server t p) := by
  rw [run_eq h hu pre fun x hx => hk x (by simp [hx]), run_eq h hu (pre ++ .join :: post) hk, length_emb]
  obtain ⟨c, hc, h5⟩ := Replica.settled_paths_agree a.setup hu pre post hask t p hs
  exact ⟨embC a c, by simp [emb, hc], fun hr hi => h5 hr (by simpa [embC] using hi)⟩

/-- C113, partial: and what the program of a client asks for reaches the producer of the server's
context once each and in that order, except for what is still on its way (C106). -/
theorem json_requests_forwarded_partial (a : App P V) (k : Allowed P V) (h : Fits a k) (hu : Legal a.setup)
    (pre post : List (Step P V)) (hk : ∀ x ∈ pre ++ .join :: post, k.step x) :
    ∃ (c : Client P V) (still : List (Wire P V)), (run a start (pre ++ .join :: post)).clients[(run a start pre).clients.length]? = some c
      ∧ c.outbox = still.map a.clientWrites
      ∧ Spec.forwarded a (run a start pre).clients.length (run a start (pre ++ [.join])) post
          ++ still.map (fun w => (a.setup.server.producerOf w.1, w))
        = (asked a.setup (run a start pre).clients.length post).map
            (fun w => (a.setup.server.producerOf w.1, w)) := by
  have hj : ∀ x ∈ pre ++ [Step.join], k.step x := by
    intro x hx
    simp only [List.mem_append, List.mem_singleton] at hx
    rcases hx with hx | rfl
    · exact hk x (by simp [hx])
    · trivial
  have hinv : ∀ (hist : List (Step P V)) (s : Replica.Sys P V), Inv k s → (∀ x ∈ hist, k.step x) →
      Inv k (Replica.run a.setup s hist) := by
    intro hist
    induction hist with
    | nil => intro s hs _; exact hs
    | cons x hist ih =>
      intro s hs hx
      exact ih _ (inv_step hu hs x (hx x (by simp))) fun y hy => hx y (by simp [hy])
  rw [run_eq h hu pre fun x hx => hk x (by simp [hx]), run_eq h hu (pre ++ .join :: post) hk,
    run_eq h hu (pre ++ [Step.join]) hj, length_emb,
    forwarded_emb h hu _ post _ (hinv _ _ (inv_start k) hj) fun x hx => hk x (by simp [hx])]
  obtain ⟨c, hc, h5⟩ := Replica.requests_forwarded a.setup hu pre post
  exact ⟨embC a c, c.outbox, by simp [emb, hc], rfl, h5⟩

/-! ## An application: numbers and texts -/

/-- Messages about texts that have numbers.  Upstream: create, read, update, delete; downstream likewise,
with `not_found` or a text. -/
def upMsgs : Tys :=
  .cons [] (.seq (.cons [] .uint (.cons [] .str .nil)))
    (.cons [] (.seq (.cons [] .uint .nil))
      (.cons [] (.seq (.cons [] .uint (.cons [] .str .nil)))
        (.cons [] (.seq (.cons [] .uint .nil)) .nil)))

/-- `not_found` or a text. -/
def maybe : Ty := .var .empty (.cons [] .str .nil)

def downMsgs : Tys :=
  .cons [] (.seq (.cons [] .uint (.cons [] maybe .nil)))
    (.cons [] (.seq (.cons [] .uint (.cons [] maybe .nil)))
      (.cons [] (.seq (.cons [] .uint (.cons [] maybe .nil)))
        (.cons [] (.seq (.cons [] .uint .nil)) .nil)))

def encMaybe : Payload (List Byte) → Bind.denote maybe
  | .value v => .inr (.inl v)
  | .notFound => .inl ()

def decMaybe : Bind.denote maybe → Payload (List Byte)
  | .inr (.inl v) => .value v
  | .inl _ => .notFound

/-- Upstream messages (the others do not occur). -/
def encUp : Wire (BitVec 32) (List Byte) → Bind.alts upMsgs
  | (_, .upCreate p v) => .inl (p, v, ())
  | (_, .upRead p) => .inr (.inl (p, ()))
  | (_, .upUpdate p v) => .inr (.inr (.inl (p, v, ())))
  | (_, m) => .inr (.inr (.inr (.inl (m.path, ()))))

def decUp : Bind.alts upMsgs → Wire (BitVec 32) (List Byte)
  | .inl x => (0, .upCreate x.1 x.2.1)
  | .inr (.inl x) => (0, .upRead x.1)
  | .inr (.inr (.inl x)) => (0, .upUpdate x.1 x.2.1)
  | .inr (.inr (.inr (.inl x))) => (0, .upDelete x.1)

/-- Downstream messages (the others do not occur). -/
def encDown : Wire (BitVec 32) (List Byte) → Bind.alts downMsgs
  | (_, .downCreate p v) => .inl (p, encMaybe v, ())
  | (_, .downRead p v) => .inr (.inl (p, encMaybe v, ()))
  | (_, .downUpdate p v) => .inr (.inr (.inl (p, encMaybe v, ())))
  | (_, m) => .inr (.inr (.inr (.inl (m.path, ()))))

def decDown : Bind.alts downMsgs → Wire (BitVec 32) (List Byte)
  | .inl x => (0, .downCreate x.1 (decMaybe x.2.1))
  | .inr (.inl x) => (0, .downRead x.1 (decMaybe x.2.1))
  | .inr (.inr (.inl x)) => (0, .downUpdate x.1 (decMaybe x.2.1))
  | .inr (.inr (.inr (.inl x))) => (0, .downDelete x.1)

/-- The contexts of `Replica.sample`. -/
def texts (pf : Platform) : App (BitVec 32) (List Byte) where
  setup :=
    { server := ⟨[⟨true, false, false⟩, ⟨false, true, false⟩], fun _ => 0, fun _ => [], fun _ => Context.mapOps⟩
      serverActor := 1
      client := ⟨[⟨true, false, false⟩, ⟨false, false, true⟩], fun _ => 0, fun _ => [], fun _ => Context.mapOps⟩
      clientActor := 0 }
  upstream := ⟨.str, upMsgs, encUp, decUp⟩
  downstream := ⟨.str, downMsgs, encDown, decDown⟩
  platform := pf

theorem texts_legal (pf : Platform) : Legal (texts pf).setup := ⟨fun _ => rfl, fun _ => rfl, rfl⟩

/-- There is one type of paths, numbers are less than 2^31, texts are ASCII without NUL. -/
def plain : Allowed (BitVec 32) (List Byte) where
  path t p := t = 0 ∧ p.toNat < 2 ^ 31
  value v := JsBind.Spec.Ascii v ∧ 0#8 ∉ v

theorem plain_fits (pf : Platform) (hp : ∀ e, pf = .browser e → JsBind.Spec.Sane e) : Fits (texts pf) plain where
  upstream w hu hk := by
    obtain ⟨t, m⟩ := w
    cases m <;> simp only [Allowed.msg, plain, Msg.isUpstream, Bool.false_eq_true] at hk hu
    all_goals
      obtain ⟨⟨rfl, -⟩, -⟩ | ⟨rfl, -⟩ := hk
      all_goals rfl
  downstream w hu hk := by
    obtain ⟨t, m⟩ := w
    cases m <;> simp [Msg.isUpstream] at hu
    · obtain ⟨⟨rfl, -⟩, -⟩ := hk
      rename_i w; cases w <;> rfl
    · obtain ⟨⟨rfl, -⟩, -⟩ := hk
      rename_i w; cases w <;> rfl
    · obtain ⟨⟨rfl, -⟩, -⟩ := hk
      rename_i w; cases w <;> rfl
    · obtain ⟨rfl, -⟩ := hk
      rfl
  native _ := by
    refine ⟨?_, ?_, ?_, ?_⟩
    · simp [texts, Bind.Spec.Wf, Bind.Spec.WfAll, upMsgs]
    · simp [texts, Bind.Spec.Wf, Bind.Spec.WfAll, downMsgs, maybe]
    · rintro ⟨t, m⟩ hu hk
      cases m <;> simp [Msg.isUpstream] at hu <;>
        simp_all [Allowed.msg, plain, texts, encUp, upMsgs, Bind.Spec.Kept, Bind.Spec.KeptAlt, Bind.Spec.KeptAll]
    · rintro ⟨t, m⟩ hu hk
      cases m <;> simp [Msg.isUpstream] at hu <;> (try rename_i w; cases w) <;>
        simp_all [Allowed.msg, Allowed.payload, plain, texts, encDown, encMaybe, maybe, downMsgs, Bind.Spec.Kept,
          Bind.Spec.KeptAlt, Bind.Spec.KeptAll]
  browser e he := by
    refine ⟨hp e he, ?_, ?_, ?_, ?_⟩
    · simp [texts, JsBind.Spec.Wf, JsBind.Spec.WfAll, Bind.Spec.names, upMsgs]
    · simp [texts, JsBind.Spec.Wf, JsBind.Spec.WfAll, Bind.Spec.names, downMsgs, maybe]
    · rintro ⟨t, m⟩ hu hk
      cases m <;> simp [Msg.isUpstream] at hu <;>
        simp_all [Allowed.msg, plain, texts, encUp, Msg.path, upMsgs, JsBind.Spec.Holds, JsBind.Spec.HoldsAlt,
          JsBind.Spec.HoldsAll, JsBind.Spec.texts, JsBind.Spec.up, JsBind.isText_of_ascii]
    · rintro ⟨t, m⟩ hu hk
      cases m <;> simp [Msg.isUpstream] at hu <;> (try rename_i w; cases w) <;>
        simp_all [Allowed.msg, Allowed.payload, plain, texts, encDown, encMaybe, maybe, downMsgs, JsBind.Spec.Holds,
          JsBind.Spec.HoldsAlt, JsBind.Spec.HoldsAll, JsBind.Spec.texts, JsBind.Spec.down, JsBind.isText_of_ascii]

/-- The hypotheses are met: two clients, a create, an update, a delete and a read of what is left. -/
def first : List (Step (BitVec 32) (List Byte)) :=
  [.act 0 0 (.upCreate 7 [97#8]), .serve 0, .produce 0 (.downCreate 7 (.value [97#8])), .look 0 0 7, .deliver 0]

def later : List (Step (BitVec 32) (List Byte)) :=
  [.act 1 0 (.upRead 7), .look 1 0 7, .produce 0 (.downUpdate 7 (.value [98#8])), .deliver 1,
   .produce 0 (.upRead 7), .produce 0 (.downUpdate 7 (.value [99#8])), .deliver 1, .deliver 1]

theorem plain_steps : ∀ x ∈ ([.join] : List (Step (BitVec 32) (List Byte))) ++ first ++ .join :: later, plain.step x := by
  intro x hx
  simp only [first, later, List.cons_append, List.nil_append, List.mem_cons, List.not_mem_nil, or_false] at hx
  rcases hx with rfl | rfl | rfl | rfl | rfl | rfl | rfl | rfl | rfl | rfl | rfl | rfl | rfl | rfl | rfl <;>
    simp [Allowed.step, Allowed.msg, Allowed.payload, plain, JsBind.Spec.Ascii]

example : (∀ x ∈ later, asksOnly x = true) ∧ (∃ x ∈ later, settles 0 7 x)
    ∧ (let s := run (texts .native) start ([.join] ++ first ++ .join :: later)
       shows s.server 0 7 = some (.value [99#8])
       ∧ (s.clients.map fun c => (shows c.stores 0 7, c.inbox.length, c.outbox.length))
          = [(some (.value [97#8]), 3, 0), (some (.value [99#8]), 0, 0)]) := by
  refine ⟨by decide, ⟨.produce 0 (.downUpdate 7 (.value [98#8])), by simp [later], rfl, rfl⟩, by decide +kernel⟩

/-- In that history a request has reached the database. -/
example : asked (texts .native).setup 0 first = [(0, .upCreate 7 [97#8])]
    ∧ Spec.forwarded (texts .native) 0 (run (texts .native) start [.join]) first = [(0, 0, .upCreate 7 [97#8])] := by
  decide +kernel

/-! ## What does not fit -/

/-- C113 violated: a browser shows another text than the server, whatever the engine. -/
theorem browser_text_violated {e : JsBind.Engine} (he : JsBind.Spec.Sane e) :
    let s := run (texts (.browser e)) start
      [.join, .produce 0 (.downCreate 7 (.value (JsBind.Spec.utf8 ['é']))), .deliver 0]
    shows s.server 0 7 = some (.value (JsBind.Spec.utf8 ['é']))
    ∧ ∃ c, s.clients = [c] ∧ c.registered = true ∧ c.inbox = [] ∧ shows c.stores 0 7 = some (.value [0xE9#8]) := by
  have h2 : e.decode (JsBind.Spec.utf8 ['é']) = [0xE9#16] := by
    rw [he.decode]; decide
  have h : readBrowser e (texts (.browser e)).downstream
      (writeNative (texts (.browser e)).downstream (0, .downCreate 7 (.value (JsBind.Spec.utf8 ['é']))))
      = [(0, .downCreate 7 (.value [0xE9#8]))] := by
    have e1 : readBrowser e (texts (.browser e)).downstream
        (writeNative (texts (.browser e)).downstream (0, .downCreate 7 (.value (JsBind.Spec.utf8 ['é']))))
        = received (texts (.browser e)).downstream (DeserJs.deserialize e .str downMsgs
          (.arr [.num 2, .arr [.num 7, .arr [.num 1, .str (e.decode (JsBind.Spec.utf8 ['é']))]]])) := rfl
    rw [e1, h2]
    rfl
  have hr : run (texts (.browser e)) start
      [.join, .produce 0 (.downCreate 7 (.value (JsBind.Spec.utf8 ['é']))), .deliver 0]
      = ⟨(Context.push (texts .native).setup.server fresh 0 (.downCreate 7 (.value (JsBind.Spec.utf8 ['é'])))).1,
          [clientPush (texts (.browser e)) ⟨fresh, [], [], true⟩ (0, .downCreate 7 (.value [0xE9#8]))]⟩ := by
    have e3 : run (texts (.browser e)) start
        [.join, .produce 0 (.downCreate 7 (.value (JsBind.Spec.utf8 ['é']))), .deliver 0]
        = ⟨(Context.push (texts .native).setup.server fresh 0 (.downCreate 7 (.value (JsBind.Spec.utf8 ['é'])))).1,
          [(readBrowser e (texts (.browser e)).downstream
            (writeNative (texts (.browser e)).downstream (0, .downCreate 7 (.value (JsBind.Spec.utf8 ['é']))))).foldl
              (clientPush (texts (.browser e))) ⟨fresh, [], [], true⟩]⟩ := rfl
    rw [e3, h]
    rfl
  simp only [hr]
  exact ⟨by decide +kernel, _, rfl, rfl, rfl, rfl⟩

/-- C113 violated: what a browser asks for at a key of 2^31 or more never reaches the database, although
it has been sent and read. -/
theorem browser_key_violated (e : JsBind.Engine) (p : BitVec 32) (hp : 2 ^ 31 ≤ p.toNat) :
    let h : List (Step (BitVec 32) (List Byte)) := [.act 0 0 (.upDelete p), .serve 0]
    asked (texts (.browser e)).setup 0 h = [(0, .upDelete p)]
    ∧ Spec.forwarded (texts (.browser e)) 0 (run (texts (.browser e)) start [.join]) h = []
    ∧ ((run (texts (.browser e)) start (.join :: h)).clients.map (·.outbox)) = [[]] := by
  have h : readNative (texts (.browser e)).upstream
      (writeBrowser e (texts (.browser e)).upstream (0, .upDelete p)) = [] := by
    have e1 : writeBrowser e (texts (.browser e)).upstream (0, .upDelete p)
        = .arr [.num 5, JsBind.toServer e (JsBind.write e .uint p)] := rfl
    have hn : Bind.asUInt (JsBind.toServer e (JsBind.write e .uint p)) = none :=
      (JsBind.to_server_unsigned_violated e p hp).2 0#32
    rw [e1]
    unfold readNative Deser.deserialize Deser.fromString
    have h5 : Bind.inInt 5 := by simp [Bind.inInt]
    simp [texts, upMsgs, Bind.read, Bind.readAlts, Bind.readMany, Bind.typeId, Bind.Tys.count, Bind.Tys.length,
      Bind.Ty.isEmpty, hn, h5, received, Deser.dispatch, Bind.init]
    rfl
  have e3 : run (texts (.browser e)) start [.join, .act 0 0 (.upDelete p)]
      = ⟨fresh, [⟨(Context.push (texts .native).setup.client fresh 0 (.upDelete p)).1, [],
          [writeBrowser e (texts (.browser e)).upstream (0, .upDelete p)], true⟩]⟩ := rfl
  refine ⟨rfl, ?_, ?_⟩
  · have e4 : Spec.forwarded (texts (.browser e)) 0 (run (texts (.browser e)) start [.join])
        [.act 0 0 (.upDelete p), .serve 0]
        = tells (texts (.browser e)) fresh (readNative (texts (.browser e)).upstream
            (writeBrowser e (texts (.browser e)).upstream (0, .upDelete p))) ++ [] := rfl
    rw [e4, h]
    rfl
  · have e4 : run (texts (.browser e)) start [.join, .act 0 0 (.upDelete p), .serve 0]
        = serverRead (texts (.browser e)) (run (texts (.browser e)) start [.join, .act 0 0 (.upDelete p)]) 0 := rfl
    rw [e4, e3]
    simp only [serverRead, List.getElem?_cons_zero, h, List.foldl_nil]
    rfl
example : 2 ^ 31 ≤ (3000000000#32).toNat := by decide

/-- C113 violated, also without a browser: a text with a NUL in it is cut. -/
theorem native_nul_violated :
    let s := run (texts .native) start
      [.join, .produce 0 (.downCreate 7 (.value [97#8, 0#8, 98#8])), .deliver 0]
    shows s.server 0 7 = some (.value [97#8, 0#8, 98#8])
    ∧ (s.clients.map fun c => (shows c.stores 0 7, c.registered, c.inbox.length)) = [(some (.value [97#8]), true, 0)] := by
  decide +kernel

end Nbdl.App
