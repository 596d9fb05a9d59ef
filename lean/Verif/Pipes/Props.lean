import Verif.Pipes.Spec
import Verif.RawMsg.Props
import Verif.Async.Props
/-! # The example program with pipes (C134) -/
namespace Nbdl.Pipes
open Async (Step St Event settle advance rejectTo)
open Async.Spec (promises)
open Promise (Call)
open RawMsg (App Obs recv recvStep read chunk)
open RawMsg.Spec (reception settles)
open Spec
variable {M X : Type}

/-! ## The client -/

theorem reject_sends (encode : M → Except X (List Byte)) (ms : List M) (k : Nat) (e : Rej) :
    rejectTo (sendAll encode k ms ++ handlers) e = rejectTo (handlers (M := M) (X := X)) e := by
  induction ms generalizing k with
  | nil => rfl
  | cons m ms ih => exact ih (k + 1)

theorem reject_handlers (e : Rej) : ∃ id, rejectTo (handlers (M := M) (X := X)) e = [.handled id e, .stopped]
    ∧ (id = 2 ↔ e = .attempts) := by
  cases e with
  | attempts => exact ⟨2, rfl, by simp⟩
  | exception => exact ⟨3, rfl, by simp⟩
  | io e => exact ⟨4, rfl, by simp⟩

theorem advance_end (v : Val M) :
    advance toRej (handlers (M := M) (X := X)) v = (.over, [.finished v]) := rfl

theorem advance_send {encode : M → Except X (List Byte)} {m : M} {b : List Byte} (h : encode m = .ok b) (k : Nat)
    (ms : List M) (v : Val M) :
    advance toRej (sendAll encode k (m :: ms) ++ handlers) v
      = (.waiting (sendAll encode (k + 1) ms ++ handlers),
        [.ran (3 * k + 5) v, .ran (3 * k + 6) (.message m), .ran (3 * k + 7) (.text b), .asked (.write (RawMsg.write b))]) := by
  simp [sendAll, sendOne, advance, h, Except.map]

theorem advance_throw {encode : M → Except X (List Byte)} {m : M} {x : X} (h : encode m = .error x) (k : Nat)
    (ms : List M) (v : Val M) :
    advance toRej (sendAll encode k (m :: ms) ++ handlers) v
      = (.over, [.ran (3 * k + 5) v, .ran (3 * k + 6) (.message m), .handled 3 .exception, .stopped]) := by
  have e : rejectTo (sendAll encode (k + 1) ms ++ handlers) (toRej x) = [.handled 3 .exception, .stopped] := by
    rw [reject_sends]; rfl
  simp [sendAll, sendOne, advance, h, Except.map, rejectTo, e]

theorem promises_sendAll (encode : M → Except X (List Byte)) (k : Nat) (ms : List M) :
    promises (sendAll encode k ms ++ handlers) = ms.length := by
  induction ms generalizing k with
  | nil => rfl
  | cons m ms ih => simp [sendAll, sendOne, promises, ih]

theorem bodies_prefix (encode : M → Except X (List Byte)) (pre post : List M) :
    bodies encode pre <+: bodies encode (pre ++ post) := by
  induction pre with
  | nil => exact List.nil_prefix
  | cons m pre ih =>
    simp only [List.cons_append, bodies]
    split
    · exact List.prefix_cons_inj _ |>.2 ih
    · exact List.prefix_refl _

theorem bodies_snoc {encode : M → Except X (List Byte)} {pre : List M} {m : M}
    (hp : ∀ m ∈ pre, ∃ b, encode m = .ok b) :
    bodies encode (pre ++ [m]) = bodies encode pre ++ bodies encode [m] := by
  induction pre with
  | nil => rfl
  | cons a pre ih =>
    obtain ⟨b, hb⟩ := hp a (by simp)
    simp [bodies, hb, ih fun m hm => hp m (by simp [hm])]

theorem bodies_stop {encode : M → Except X (List Byte)} {pre : List M} {m : M} {x : X} (hx : encode m = .error x)
    (post : List M) : bodies encode (pre ++ m :: post) = bodies encode pre := by
  induction pre with
  | nil => simp [bodies, hx]
  | cons a pre ih =>
    simp only [List.cons_append, bodies]
    split
    · rw [ih]
    · rfl

/-- Where the client is.  `good` says that no write has failed. -/
inductive Phase (p : Prog M X) (s : Sys M X) (good : Prop) : Prop
  | connecting (hc : s.client = .waiting (.tap 1 (fun _ => none) :: (sendAll p.encode 0 p.messages ++ handlers)))
      (ho : s.op = some .connect) (hs : s.sent = []) (hl : .handled 2 .attempts ∉ s.log)
  | writing (pre : List M) (m : M) (post : List M) (b : List Byte) (hm : p.messages = pre ++ m :: post)
      (hp : ∀ m ∈ pre, ∃ b, p.encode m = .ok b) (hb : p.encode m = .ok b)
      (hc : s.client = .waiting (sendAll p.encode (pre.length + 1) post ++ handlers))
      (ho : s.op = some (.write (RawMsg.write b)))
      (hs : s.sent = (bodies p.encode (pre ++ [m])).flatMap RawMsg.write)
      (hl : .handled 2 .attempts ∉ s.log)
  | ended (hc : s.client = .over) (ho : s.op = none) (pre post : List M) (hm : p.messages = pre ++ post)
      (hs : s.sent = (bodies p.encode pre).flatMap RawMsg.write)
      (hg : good → .handled 2 .attempts ∈ s.log ∨ bodies p.encode pre = bodies p.encode p.messages)
      (he : good → .handled 2 .attempts ∉ s.log → (∀ m ∈ p.messages, ∃ b, p.encode m = .ok b) →
        ∃ t v, s.log = t ++ [.finished v])

/-- The server: it was given, in pieces, what has arrived; or its read failed at some time. -/
inductive Serves (p : Prog M X) (s : Sys M X) (good : Prop) : Prop
  | receives (pieces : List (List Byte)) (hp : pieces.flatten = s.sent.take s.got)
      (hr : recv p.app (.receiving (.length [])) (pieces.map .bytes) = (s.server, s.seen))
  | broken (hg : ¬ good) (pieces : List (List Byte)) (n e : Nat) (hn : n ≤ s.got) (hp : pieces.flatten = s.sent.take n)
      (hf : s.server = .finished)
      (hs : s.seen = (recv p.app (.receiving (.length [])) (pieces.map .bytes)).2 ++ [.rejectedIo e])

structure Inv (p : Prog M X) (s : Sys M X) (gw gr : Prop) : Prop where
  phase : Phase p s gw
  serves : Serves p s gr
  got : s.got ≤ s.sent.length

theorem started_append (a b : List (Event (Val M) Rej X Op)) : started (a ++ b) = started a ++ started b := by
  induction a with
  | nil => rfl
  | cons e a ih => cases e <;> simp [started, ih]

/-- The client goes on from after a write (or from the connection). -/
theorem phase_carry {p : Prog M X} {s : Sys M X} {good : Prop} (pre post : List M) (hm : p.messages = pre ++ post)
    (hp : ∀ m ∈ pre, ∃ b, p.encode m = .ok b) (hs : s.sent = (bodies p.encode pre).flatMap RawMsg.write)
    (hl : .handled 2 .attempts ∉ s.log) (v : Val M) (front : List (Event (Val M) Rej X Op)) (hfs : started front = [])
    (hfl : .handled 2 .attempts ∉ front)
    (r : St (Val M) Rej X Op × List (Event (Val M) Rej X Op))
    (hr : r = ((advance toRej (sendAll p.encode pre.length post ++ handlers) v).1,
      front ++ (advance toRej (sendAll p.encode pre.length post ++ handlers) v).2)) :
    Phase p (carry s r) good := by
  have hst : ∀ l : List (Event (Val M) Rej X Op), started (front ++ l) = started l := by
    intro l
    rw [started_append, hfs, List.nil_append]
  subst hr
  cases post with
  | nil =>
    have e : advance toRej (sendAll p.encode pre.length [] ++ handlers) v = (.over, [.finished v]) := rfl
    rw [List.append_nil] at hm
    refine .ended (by simp [carry, e]) (by simp [carry, e, hst, started]) pre [] (by simp [hm]) ?_ ?_ ?_
    · simp [carry, e, hst, started, hs]
    · intro _; right; rw [hm]
    · intro _ _ _; exact ⟨s.log ++ front, v, by simp [carry, e]⟩
  | cons m post =>
    cases hb : p.encode m with
    | ok b =>
      have e := advance_send hb pre.length post v
      refine .writing pre m post b hm hp hb (by simp [carry, e]) (by simp [carry, e, hst, started]) ?_ ?_
      · rw [bodies_snoc hp]
        simp [carry, e, hst, started, hs, bodies, hb, Op.bytes]
      · simp [carry, e, hl, hfl]
    | error x =>
      have e := advance_throw hb pre.length post v
      refine .ended (by simp [carry, e]) (by simp [carry, e, hst, started]) pre (m :: post) hm ?_ ?_ ?_
      · simp [carry, e, hst, started, hs]
      · intro _; right; rw [hm, bodies_stop hb]
      · intro _ _ h
        obtain ⟨b, h⟩ := h m (by simp [hm])
        rw [hb] at h; cases h

theorem phase_reject {p : Prog M X} {s : Sys M X} {good : Prop} (pre rest post : List M) (hm : p.messages = pre ++ rest)
    (hs : s.sent = (bodies p.encode pre).flatMap RawMsg.write) (e : Rej) (hg : good → e = .attempts) (k : Nat)
    (r : St (Val M) Rej X Op × List (Event (Val M) Rej X Op))
    (hr : r = (.over, rejectTo (sendAll p.encode k post ++ handlers) e)) : Phase p (carry s r) good := by
  obtain ⟨id, he, hi⟩ := reject_handlers (M := M) (X := X) e
  rw [reject_sends, he] at hr
  subst hr
  refine .ended rfl (by simp [carry, started]) pre rest hm (by simp [carry, started, hs]) ?_ ?_
  · intro g
    left
    rw [hg g] at hi
    simp [carry, hi.2 rfl, hg g]
  · intro g hn
    exact absurd (by rw [hg g] at hi; simp [carry, hi.2 rfl, hg g]) hn

/-! ## All histories -/

theorem recv_append (app : App M) (s : RawMsg.St) (is js : List RawMsg.In) :
    recv app s (is ++ js) = ((recv app (recv app s is).1 js).1, (recv app s is).2 ++ (recv app (recv app s is).1 js).2) := by
  induction is generalizing s with
  | nil => rfl
  | cons i is ih => simp [recv, ih]

theorem take_mono {l l' : List Byte} {n : Nat} (h : l <+: l') (hn : n ≤ l.length) : l'.take n = l.take n := by
  obtain ⟨r, rfl⟩ := h
  rw [List.take_append_of_le_length hn]

/-- The client's part does not touch the server's. -/
theorem serves_carry {p : Prog M X} {s : Sys M X} {good : Prop} (h : Serves p s good) (hg : s.got ≤ s.sent.length)
    (r : St (Val M) Rej X Op × List (Event (Val M) Rej X Op)) : Serves p (carry s r) good := by
  have hpre : s.sent <+: (carry s r).sent := ⟨_, rfl⟩
  cases h with
  | receives pieces hp hr => exact .receives pieces (by rw [hp]; exact (take_mono hpre hg).symm) hr
  | broken hgood pieces n e hn hp hf hs =>
    exact .broken hgood pieces n e hn (by rw [hp]; exact (take_mono hpre (Nat.le_trans hn hg)).symm) hf hs

theorem got_carry {s : Sys M X} (hg : s.got ≤ s.sent.length)
    (r : St (Val M) Rej X Op × List (Event (Val M) Rej X Op)) : (carry s r).got ≤ (carry s r).sent.length := by
  show s.got ≤ (s.sent ++ _).length
  rw [List.length_append]; omega

theorem inv_start (p : Prog M X) (gw gr : Prop) : Inv p (start p) gw gr := by
  refine ⟨.connecting rfl rfl rfl ?_, .receives [] rfl rfl, Nat.le_refl _⟩
  simp [start, carry, client, advance]

theorem recvStep_finished (app : App M) (i : RawMsg.In) : recvStep app .finished i = (.finished, []) := by
  cases i with
  | bytes c => exact RawMsg.recvBytes_finished app c
  | error e => rfl

/-- Every step keeps the invariant; a failure of a write or of a read is remembered. -/
theorem inv_step {p : Prog M X} {s : Sys M X} {gw gr : Prop} (h : Inv p s gw gr) (i : In) :
    Inv p (step p s i) (gw ∧ ∀ e, i ≠ .writeFailed e) (gr ∧ ∀ e, i ≠ .lost e) := by
  obtain ⟨hph, hsv, hgot⟩ := h
  have weakP : Phase p s (gw ∧ ∀ e, i ≠ .writeFailed e) := by
    cases hph with
    | connecting hc ho hs hl => exact .connecting hc ho hs hl
    | writing pre m post b hm hp hb hc ho hs hl => exact .writing pre m post b hm hp hb hc ho hs hl
    | ended hc ho pre post hm hs hg he => exact .ended hc ho pre post hm hs (fun g => hg g.1) (fun g => he g.1)
  have weakS : Serves p s (gr ∧ ∀ e, i ≠ .lost e) := by
    cases hsv with
    | receives pieces hp hr => exact .receives pieces hp hr
    | broken hgood pieces n e hn hp hf hs => exact .broken (fun g => hgood g.1) pieces n e hn hp hf hs
  have same : Inv p s (gw ∧ ∀ e, i ≠ .writeFailed e) (gr ∧ ∀ e, i ≠ .lost e) := ⟨weakP, weakS, hgot⟩
  have failed : ∀ n, Inv p { s with failed := n } (gw ∧ ∀ e, i ≠ .writeFailed e) (gr ∧ ∀ e, i ≠ .lost e) := by
    intro n
    refine ⟨?_, ?_, hgot⟩
    · cases weakP with
      | connecting hc ho hs hl => exact .connecting hc ho hs hl
      | writing pre m post b hm hp hb hc ho hs hl => exact .writing pre m post b hm hp hb hc ho hs hl
      | ended hc ho pre post hm hs hg he => exact .ended hc ho pre post hm hs hg he
    · cases weakS with
      | receives pieces hp hr => exact .receives pieces hp hr
      | broken hgood pieces n e hn hp hf hs => exact .broken hgood pieces n e hn hp hf hs
  cases i with
  | attempt ok =>
    simp only [step]
    split
    · rename_i ho'
      cases hph with
      | connecting hc ho hs hl =>
        split
        · refine ⟨?_, serves_carry weakS hgot _, got_carry hgot _⟩
          refine phase_carry [] p.messages rfl (by simp) (by simp [hs, bodies]) hl .nothing [.ran 1 .nothing] rfl
            (by simp) _ ?_
          rw [hc]; rfl
        · split
          · refine ⟨?_, serves_carry (failed _).serves (failed _).got _, got_carry (failed _).got _⟩
            refine phase_reject [] p.messages p.messages rfl (by simp [hs, bodies]) .attempts (fun _ => rfl) 0 _ ?_
            simp only [hc]; rfl
          · exact failed _
      | writing pre m post b hm hp hb hc ho hs hl => rw [ho] at ho'; cases ho'
      | ended hc ho pre post hm hs hg he => rw [ho] at ho'; cases ho'
    · exact same
  | wrote =>
    simp only [step]
    split
    · rename_i ho'
      cases hph with
      | connecting hc ho hs hl => rw [ho] at ho'; cases ho'
      | writing pre m post b hm hp hb hc ho hs hl =>
        refine ⟨?_, serves_carry weakS hgot _, got_carry hgot _⟩
        refine phase_carry (pre ++ [m]) post (by simp [hm]) ?_ hs hl .nothing [] rfl (by simp) _ ?_
        · intro a ha
          rcases List.mem_append.1 ha with ha | ha
          · exact hp a ha
          · rw [List.mem_singleton.1 ha]; exact ⟨b, hb⟩
        · rw [hc, List.length_append]; rfl
      | ended hc ho pre post hm hs hg he => rw [ho] at ho'; cases ho'
    · exact same
  | writeFailed e =>
    simp only [step]
    split
    · rename_i ho'
      cases hph with
      | connecting hc ho hs hl => rw [ho] at ho'; cases ho'
      | writing pre m post b hm hp hb hc ho hs hl =>
        refine ⟨?_, serves_carry weakS hgot _, got_carry hgot _⟩
        refine phase_reject (pre ++ [m]) post post (by simp [hm]) hs (.io e) (fun g => absurd rfl (g.2 e))
          (pre.length + 1) _ ?_
        rw [hc]; rfl
      | ended hc ho pre post hm hs hg he => rw [ho] at ho'; cases ho'
    · exact same
  | arrive k =>
    simp only [step]
    have hlen : s.got + ((s.sent.drop s.got).take k).length ≤ s.sent.length := by
      rw [List.length_take, List.length_drop]; omega
    refine ⟨?_, ?_, hlen⟩
    · cases weakP with
      | connecting hc ho hs hl => exact .connecting hc ho hs hl
      | writing pre m post b hm hp hb hc ho hs hl => exact .writing pre m post b hm hp hb hc ho hs hl
      | ended hc ho pre post hm hs hg he => exact .ended hc ho pre post hm hs hg he
    · cases weakS with
      | receives pieces hp hr =>
        refine .receives (pieces ++ [(s.sent.drop s.got).take k]) ?_ ?_
        · show _ = s.sent.take (s.got + ((s.sent.drop s.got).take k).length)
          rw [List.take_add, List.flatten_append, hp]
          simp [List.take_take]
        · rw [List.map_append, recv_append, hr]
          simp [recv, serve]
      | broken hgood pieces n e hn hp hf hs =>
        refine .broken hgood pieces n e (by show n ≤ s.got + _; omega) hp ?_ ?_
        · simp [serve, hf, recvStep_finished]
        · simp [serve, hf, recvStep_finished, hs]
  | lost e =>
    simp only [step]
    refine ⟨?_, ?_, hgot⟩
    · cases weakP with
      | connecting hc ho hs hl => exact .connecting hc ho hs hl
      | writing pre m post b hm hp hb hc ho hs hl => exact .writing pre m post b hm hp hb hc ho hs hl
      | ended hc ho pre post hm hs hg he => exact .ended hc ho pre post hm hs hg he
    · cases hsrv : s.server with
      | finished =>
        have e' : serve p s (.error e) = s := by
          simp [serve, hsrv, recvStep_finished]
          rw [← hsrv]
        rw [e']; exact weakS
      | receiving w =>
        cases weakS with
        | receives pieces hp hr =>
          refine .broken (fun g => g.2 e rfl) pieces s.got e (Nat.le_refl _) hp ?_ ?_
          · simp [serve, hsrv, recvStep]
          · simp [serve, hsrv, recvStep, hr]
        | broken hgood pieces n e hn hp hf hs => rw [hsrv] at hf; cases hf

theorem inv_run (p : Prog M X) (h : List In) : Inv p (run p h) (∀ e, .writeFailed e ∉ h) (∀ e, .lost e ∉ h) := by
  have key : ∀ (h : List In) (s : Sys M X) (gw gr : Prop), Inv p s gw gr →
      Inv p (h.foldl (step p) s) (gw ∧ ∀ e, .writeFailed e ∉ h) (gr ∧ ∀ e, .lost e ∉ h) := by
    intro h
    induction h with
    | nil => intro s gw gr hi; simpa using hi
    | cons i h ih =>
      intro s gw gr hi
      have := ih _ _ _ (inv_step hi i)
      have e1 : ((gw ∧ ∀ e, i ≠ .writeFailed e) ∧ ∀ e, .writeFailed e ∉ h) = (gw ∧ ∀ e, .writeFailed e ∉ i :: h) := by
        apply propext
        constructor
        · rintro ⟨⟨g, a⟩, b⟩
          exact ⟨g, fun e hm => (List.mem_cons.1 hm).elim (fun x => a e x.symm) (b e)⟩
        · rintro ⟨g, a⟩
          exact ⟨⟨g, fun e x => a e (by simp [x])⟩, fun e hm => a e (by simp [hm])⟩
      have e2 : ((gr ∧ ∀ e, i ≠ .lost e) ∧ ∀ e, .lost e ∉ h) = (gr ∧ ∀ e, .lost e ∉ i :: h) := by
        apply propext
        constructor
        · rintro ⟨⟨g, a⟩, b⟩
          exact ⟨g, fun e hm => (List.mem_cons.1 hm).elim (fun x => a e x.symm) (b e)⟩
        · rintro ⟨g, a⟩
          exact ⟨⟨g, fun e x => a e (by simp [x])⟩, fun e hm => a e (by simp [hm])⟩
      rw [e1, e2] at this
      exact this
  have := key h (start p) True True (inv_start p _ _)
  rw [true_and, true_and] at this
  exact this

/-! ## C134 -/

/-- What the client has written is some of the bodies, in order. -/
theorem sent_bodies {p : Prog M X} {s : Sys M X} {good : Prop} (h : Phase p s good) :
    ∃ bs, bs <+: bodies p.encode p.messages ∧ s.sent = bs.flatMap RawMsg.write := by
  cases h with
  | connecting hc ho hs hl => exact ⟨[], List.nil_prefix, hs⟩
  | writing pre m post b hm hp hb hc ho hs hl =>
    refine ⟨_, ?_, hs⟩
    rw [hm, show pre ++ m :: post = (pre ++ [m]) ++ post by simp]
    exact bodies_prefix _ _ _
  | ended hc ho pre post hm hs hg he =>
    refine ⟨_, ?_, hs⟩
    rw [hm]; exact bodies_prefix _ _ _

theorem seen_pieces {p : Prog M X} (bs : List (List Byte)) (hbs : ∀ b ∈ bs, b.length < 2 ^ 32)
    (pieces : List (List Byte)) (n : Nat) (hp : pieces.flatten = (bs.flatMap RawMsg.write).take n) :
    ∃ j, (recv p.app (.receiving (.length [])) (pieces.map .bytes)).2 = reception p.app (bs.take j) := by
  have h1 := RawMsg.receive_correct p.app pieces
  have h2 := RawMsg.write_read_prefix_partial bs hbs pieces ((bs.flatMap RawMsg.write).drop n)
    (by rw [hp, List.take_append_drop])
  refine ⟨(read (.length []) pieces).2.length, ?_⟩
  rw [h1, List.prefix_iff_eq_take.1 h2, List.length_take]
  congr 2
  have := h2.length_le
  omega

theorem fits_prefix {p : Prog M X} (hfit : Fits p) {bs : List (List Byte)} (h : bs <+: bodies p.encode p.messages) :
    ∀ b ∈ bs, b.length < 2 ^ 32 := fun b hb => hfit b (h.subset hb)

/-- C134: whatever the network does, the server does what it is to do for the first so many of the messages, each once and
in order, and then perhaps, if its read failed, is told so. -/
theorem server_sees_partial (p : Prog M X) (hfit : Fits p) (h : List In) :
    (∃ j, (run p h).seen = reception p.app ((bodies p.encode p.messages).take j))
    ∨ (∃ e, .lost e ∈ h)
      ∧ ∃ j e, (run p h).seen = reception p.app ((bodies p.encode p.messages).take j) ++ [.rejectedIo e] := by
  obtain ⟨hph, hsv, hgot⟩ := inv_run p h
  obtain ⟨bs, hbs, hs⟩ := sent_bodies hph
  have tk : ∀ j, ∃ i, bs.take j = (bodies p.encode p.messages).take i := by
    intro j
    refine ⟨min j bs.length, ?_⟩
    rw [List.prefix_iff_eq_take.1 hbs, List.take_take]
    congr 1
    rw [List.length_take]
    have := hbs.length_le
    omega
  cases hsv with
  | receives pieces hp hr =>
    left
    obtain ⟨j, hj⟩ := seen_pieces (p := p) bs (fits_prefix hfit hbs) pieces _ (by rw [hp, hs])
    obtain ⟨i, hi⟩ := tk j
    exact ⟨i, by rw [← hi, ← hj, hr]⟩
  | broken hg pieces n e hn hp hf hse =>
    right
    refine ⟨?_, ?_⟩
    · apply Classical.byContradiction
      intro hno
      exact hg fun e he => hno ⟨e, he⟩
    · obtain ⟨j, hj⟩ := seen_pieces (p := p) bs (fits_prefix hfit hbs) pieces _ (by rw [hp, hs])
      obtain ⟨i, hi⟩ := tk j
      exact ⟨i, e, by rw [← hi, ← hj, hse]⟩

/-- The attempts are used up only by so many failures. -/
theorem advance_no_attempts (encode : M → Except X (List Byte)) (ms : List M) (k : Nat) (v : Val M) :
    .handled 2 .attempts ∉ (advance toRej (sendAll encode k ms ++ handlers) v).2 := by
  cases ms with
  | nil => rw [show sendAll encode k [] = [] from rfl, List.nil_append, advance_end]; simp
  | cons m ms =>
    cases h : encode m with
    | ok b => rw [advance_send h]; simp
    | error x => rw [advance_throw h]; simp

theorem gave_up_step {p : Prog M X} {s : Sys M X} {gw : Prop} (hph : Phase p s gw)
    (h : .handled 2 .attempts ∈ s.log → p.attempts < s.failed) (i : In) :
    .handled 2 .attempts ∈ (step p s i).log → p.attempts < (step p s i).failed := by
  cases i with
  | attempt ok =>
    simp only [step]
    split
    · rename_i ho'
      cases hph with
      | connecting hc ho hs hl =>
        split
        · intro hm
          exfalso
          simp only [carry, hc] at hm
          rcases List.mem_append.1 hm with hm | hm
          · exact hl hm
          · rcases List.mem_cons.1 hm with hm | hm
            · cases hm
            · exact advance_no_attempts _ _ _ _ hm
        · split
          · intro _; simp [carry]; omega
          · intro hm; exact absurd hm hl
      | writing pre m post b hm hp hb hc ho hs hl => rw [ho] at ho'; cases ho'
      | ended hc ho pre post hm hs hg he => rw [ho] at ho'; cases ho'
    · exact h
  | wrote =>
    simp only [step]
    split
    · rename_i ho'
      cases hph with
      | connecting hc ho hs hl => rw [ho] at ho'; cases ho'
      | writing pre m post b hm hp hb hc ho hs hl =>
        intro hm'
        exfalso
        simp only [carry, hc] at hm'
        rcases List.mem_append.1 hm' with hm' | hm'
        · exact hl hm'
        · exact advance_no_attempts _ _ _ _ hm'
      | ended hc ho pre post hm hs hg he => rw [ho] at ho'; cases ho'
    · exact h
  | writeFailed e =>
    simp only [step]
    split
    · rename_i ho'
      cases hph with
      | connecting hc ho hs hl => rw [ho] at ho'; cases ho'
      | writing pre m post b hm hp hb hc ho hs hl =>
        intro hm'
        exfalso
        simp only [carry, hc, settle, reject_sends] at hm'
        obtain ⟨id, he, _⟩ := reject_handlers (M := M) (X := X) (.io e)
        rw [he] at hm'
        simp [hl] at hm'
      | ended hc ho pre post hm hs hg he => rw [ho] at ho'; cases ho'
    · exact h
  | arrive k => exact h
  | lost e => exact h

theorem failed_step (p : Prog M X) (s : Sys M X) (i : In) :
    (step p s i).failed ≤ s.failed + if i = .attempt false then 1 else 0 := by
  cases i with
  | attempt ok =>
    simp only [step]
    split
    · split
      · simp [carry]
      · rename_i hok
        have : ok = false := by simpa using hok
        subst this
        split <;> simp [carry]
    · omega
  | wrote => simp only [step]; split <;> simp [carry]
  | writeFailed e => simp only [step]; split <;> simp [carry]
  | arrive k => simp [step, serve]
  | lost e => simp [step, serve]

theorem run_snoc (p : Prog M X) (h : List In) (i : In) : run p (h ++ [i]) = step p (run p h) i := by
  simp [run]

/-- C134: the client gives up only after more failed attempts than it was to make. -/
theorem gave_up (p : Prog M X) (h : List In) (hm : .handled 2 .attempts ∈ (run p h).log) :
    p.attempts < (h.count (.attempt false) : Nat) := by
  have key : ∀ r : List In, (.handled 2 .attempts ∈ (run p r.reverse).log → p.attempts < (run p r.reverse).failed)
      ∧ (run p r.reverse).failed ≤ r.reverse.count (.attempt false) := by
    intro r
    induction r with
    | nil =>
      refine ⟨?_, by simp [run, start, carry]⟩
      intro hm
      simp [run, start, carry, client, advance] at hm
    | cons i r ih =>
      rw [List.reverse_cons, run_snoc]
      refine ⟨gave_up_step (inv_run p _).phase ih.1 i, ?_⟩
      have := failed_step p (run p r.reverse) i
      rw [List.count_append]
      by_cases hi : i = .attempt false
      · subst hi
        rw [if_pos rfl] at this
        rw [List.count_singleton_self]; omega
      · rw [if_neg hi] at this
        rw [List.count_eq_zero_of_not_mem (l := [i]) (by simpa using fun e => hi e.symm)]; omega
  have := key h.reverse
  rw [List.reverse_reverse] at this
  have h1 := this.1 hm
  have h2 := this.2
  omega

/-- Nothing can happen any more: the client is over and everything has arrived. -/
theorem quiet_shape {p : Prog M X} {s : Sys M X} {gw gr : Prop} (hi : Inv p s gw gr) (hq : Quiet p s) :
    s.client = .over ∧ s.op = none ∧ s.got = s.sent.length := by
  obtain ⟨hph, hsv, hgot⟩ := hi
  have hall : s.got = s.sent.length := by
    have := hq (.arrive s.sent.length)
    simp only [Moves, List.length_take, List.length_drop] at this
    omega
  cases hph with
  | connecting hc ho hs hl => exact absurd ho (hq (.attempt true))
  | writing pre m post b hm hp hb hc ho hs hl => exact absurd ⟨_, ho⟩ (hq .wrote)
  | ended hc ho pre post hm hs hg he => exact ⟨hc, ho, hall⟩

/-- C134: if the connection holds and is made within the attempts, then the server has done what it is to do for all the
messages when nothing more can happen. -/
theorem quiet_outcome_partial (p : Prog M X) (hfit : Fits p) (h : List In) (hh : Holds h) (hq : Quiet p (run p h))
    (hc : (h.count (.attempt false) : Int) ≤ p.attempts) :
    (run p h).seen = reception p.app (bodies p.encode p.messages) := by
  have hi := inv_run p h
  obtain ⟨_, _, hall⟩ := quiet_shape hi hq
  have hno : .handled 2 .attempts ∉ (run p h).log := by
    intro hm
    have := gave_up p h hm
    omega
  obtain ⟨hph, hsv, hgot⟩ := hi
  have hsent : (run p h).sent = (bodies p.encode p.messages).flatMap RawMsg.write := by
    cases hph with
    | connecting hc ho hs hl => exact absurd ho (hq (.attempt true))
    | writing pre m post b hm hp hb hc ho hs hl => exact absurd ⟨_, ho⟩ (hq .wrote)
    | ended hc ho pre post hm hs hg he =>
      rcases hg hh.1 with hg | hg
      · exact absurd hg hno
      · rw [hs, hg]
  cases hsv with
  | receives pieces hp hr =>
    have h1 := RawMsg.receive_correct p.app pieces
    rw [RawMsg.write_read_partial _ hfit pieces (by rw [hp, hall, List.take_length, hsent]), hr] at h1
    exact h1
  | broken hg pieces n e hn hp hf hse => exact absurd hh.2 hg

/-! The server is finished exactly if its pipeline was settled. -/

theorem handle_settles (app : App M) (b : List Byte) :
    (RawMsg.handle app b).1 = false ↔ ∃ o ∈ (RawMsg.handle app b).2, settles o = true := by
  unfold RawMsg.handle
  split
  · simp [settles]
  · split
    · simp
    · split <;> simp [settles]
    · split <;> simp [settles]

theorem recvBytes_settles (app : App M) (bs : List Byte) (s : RawMsg.St) :
    (RawMsg.recvBytes app s bs).1 = .finished ↔ s = .finished ∨ ∃ o ∈ (RawMsg.recvBytes app s bs).2, settles o = true := by
  induction bs generalizing s with
  | nil => simp [RawMsg.recvBytes]
  | cons b bs ih =>
    have one : (RawMsg.recvByte app s b).1 = .finished
        ↔ s = .finished ∨ ∃ o ∈ (RawMsg.recvByte app s b).2, settles o = true := by
      cases s with
      | finished => simp [RawMsg.recvByte]
      | receiving w =>
        simp only [RawMsg.recvByte]
        split
        · simp
        · rename_i w' body hb
          have := handle_settles app body
          split
          · rename_i o ho; rw [ho] at this; simpa using this
          · rename_i o ho; rw [ho] at this; simpa using this
    simp only [RawMsg.recvBytes, List.mem_append]
    rw [ih, one]
    constructor
    · rintro ((h | ⟨o, h1, h2⟩) | ⟨o, h1, h2⟩)
      · exact .inl h
      · exact .inr ⟨o, .inl h1, h2⟩
      · exact .inr ⟨o, .inr h1, h2⟩
    · rintro (h | ⟨o, h1 | h1, h2⟩)
      · exact .inl (.inl h)
      · exact .inl (.inr ⟨o, h1, h2⟩)
      · exact .inr ⟨o, h1, h2⟩

theorem recv_settles (app : App M) (is : List RawMsg.In) (s : RawMsg.St) :
    (recv app s is).1 = .finished ↔ s = .finished ∨ ∃ o ∈ (recv app s is).2, settles o = true := by
  induction is generalizing s with
  | nil => simp [recv]
  | cons i is ih =>
    have one : (recvStep app s i).1 = .finished ↔ s = .finished ∨ ∃ o ∈ (recvStep app s i).2, settles o = true := by
      cases i with
      | bytes c => exact recvBytes_settles app c s
      | error e => cases s <;> simp [recvStep, settles]
    simp only [recv, List.mem_append]
    rw [ih, one]
    constructor
    · rintro ((h | ⟨o, h1, h2⟩) | ⟨o, h1, h2⟩)
      · exact .inl h
      · exact .inr ⟨o, .inl h1, h2⟩
      · exact .inr ⟨o, .inr h1, h2⟩
    · rintro (h | ⟨o, h1 | h1, h2⟩)
      · exact .inl (.inl h)
      · exact .inl (.inr ⟨o, h1, h2⟩)
      · exact .inr ⟨o, h1, h2⟩

/-- C134: when nothing more can happen, the process has ended exactly if the server's pipeline was settled. -/
theorem done_iff (p : Prog M X) (h : List In) (hq : Quiet p (run p h)) :
    Done (run p h) ↔ ∃ o ∈ (run p h).seen, settles o = true := by
  have hi := inv_run p h
  obtain ⟨_, ho, _⟩ := quiet_shape hi hq
  obtain ⟨_, hsv, _⟩ := hi
  have : (run p h).server = .finished ↔ ∃ o ∈ (run p h).seen, settles o = true := by
    cases hsv with
    | receives pieces hp hr =>
      have := recv_settles p.app (pieces.map .bytes) (.receiving (.length []))
      rw [hr] at this
      simpa using this
    | broken hg pieces n e hn hp hf hse =>
      refine ⟨fun _ => ⟨.rejectedIo e, by simp [hse], rfl⟩, fun _ => hf⟩
  simp [Done, ho, this]

/-- The messages are what the example's are: each can be encoded and decoded again, the actions do not throw, and the last
one, and no other, terminates. -/
structure Talk (p : Prog M X) (ms : List M) (last : M) : Prop where
  messages : p.messages = ms ++ [last]
  decodes : ∀ m ∈ p.messages, ∃ b, p.encode m = .ok b ∧ p.app.parse b = some m
  others : ∀ m ∈ ms, p.app.kind m = .other
  terminates : p.app.kind last = .terminate
  quiet : ∀ m ∈ p.messages, p.app.throws m = false

theorem reception_talk {p : Prog M X} {ms : List M} {last : M} (ht : Talk p ms last) :
    reception p.app (bodies p.encode p.messages)
      = ms.map .action ++ [.action last, .closed, .resolved last] := by
  obtain ⟨hm, hd, ho, hl, hq⟩ := ht
  rw [hm] at hd hq ⊢
  clear hm
  induction ms with
  | nil =>
    obtain ⟨b, hb, hp⟩ := hd last (by simp)
    simp [bodies, hb, reception, hp, hl, hq last (by simp)]
  | cons m ms ih =>
    obtain ⟨b, hb, hp⟩ := hd m (by simp)
    have := ih (fun a ha => hd a (List.mem_cons_of_mem _ ha)) (fun a ha => ho a (by simp [ha]))
      (fun a ha => hq a (List.mem_cons_of_mem _ ha))
    simp [bodies, hb, reception, hp, ho m (by simp), hq m (by simp), this]

/-- C134: a conversation that holds has every message acted on, once and in order; both pipelines have come to their ends
and the process ends. -/
theorem all_acted_partial (p : Prog M X) (hfit : Fits p) {ms : List M} {last : M} (ht : Talk p ms last) (h : List In)
    (hh : Holds h) (hq : Quiet p (run p h)) (hc : (h.count (.attempt false) : Int) ≤ p.attempts) :
    (run p h).seen = ms.map .action ++ [.action last, .closed, .resolved last]
    ∧ (∃ t v, (run p h).log = t ++ [.finished v]) ∧ Done (run p h) := by
  have hs := quiet_outcome_partial p hfit h hh hq hc
  rw [reception_talk ht] at hs
  refine ⟨hs, ?_, (done_iff p h hq).2 ⟨.resolved last, by simp [hs], rfl⟩⟩
  have hno : .handled 2 .attempts ∉ (run p h).log := by
    intro hm
    have := gave_up p h hm
    omega
  cases (inv_run p h).phase with
  | connecting hc ho hs hl => exact absurd ho (hq (.attempt true))
  | writing pre m post b hm hp hb hc ho hs hl => exact absurd ⟨_, ho⟩ (hq .wrote)
  | ended hc ho pre post hm hs hg he =>
    exact he hh.1 hno fun m hm => by
      obtain ⟨b, hb, _⟩ := ht.decodes m hm
      exact ⟨b, hb⟩

/-! ## Time -/

/-- How much is left to do. -/
def left (p : Prog M X) (s : Sys M X) : Nat :=
  (match s.client with | .waiting rest => promises rest + 1 | .over => 0)
  + (if s.op = some .connect then (p.attempts - s.failed).toNat else 0)
  + (((bodies p.encode p.messages).flatMap RawMsg.write).length - s.got)

theorem left_carry {p : Prog M X} {s : Sys M X} (post : List M) (k : Nat) (v : Val M)
    (front : List (Event (Val M) Rej X Op)) (hfs : started front = [])
    (r : St (Val M) Rej X Op × List (Event (Val M) Rej X Op))
    (hr : r = ((advance toRej (sendAll p.encode k post ++ handlers) v).1,
      front ++ (advance toRej (sendAll p.encode k post ++ handlers) v).2)) :
    left p (carry s r) ≤ post.length + (((bodies p.encode p.messages).flatMap RawMsg.write).length - s.got) := by
  subst hr
  cases post with
  | nil =>
    have e : advance toRej (sendAll p.encode k [] ++ handlers) v = (.over, [.finished v]) := rfl
    simp [left, carry, e, started_append, hfs, started]
  | cons m post =>
    cases hb : p.encode m with
    | ok b =>
      simp [left, carry, advance_send hb, started_append, hfs, started, promises_sendAll]
    | error x => simp [left, carry, advance_throw hb, started_append, hfs, started]

/-- Whatever happens leaves less to do. -/
theorem left_step {p : Prog M X} {s : Sys M X} {gw gr : Prop} (hi : Inv p s gw gr) (i : In) (hm : Moves p s i) :
    left p (step p s i) < left p s := by
  obtain ⟨hph, hsv, hgot⟩ := hi
  cases i with
  | attempt ok =>
    have ho' : s.op = some .connect := hm
    cases hph with
    | connecting hc ho hs hl =>
      have e : left p s = p.messages.length + 1 + (p.attempts - s.failed).toNat
          + (((bodies p.encode p.messages).flatMap RawMsg.write).length - s.got) := by
        simp [left, hc, ho, promises, promises_sendAll]
      simp only [step, ho']
      split
      · have := left_carry (p := p) (s := s) p.messages 0 .nothing [.ran 1 .nothing] rfl
          (settle toRej s.client (.resolve .nothing)) (by rw [hc]; rfl)
        omega
      · split
        · rename_i hge
          rw [e]
          simp only [left, carry, hc, settle]
          rw [show rejectTo (.tap 1 (fun _ => none) :: (sendAll p.encode 0 p.messages ++ handlers)) Rej.attempts
            = rejectTo (sendAll p.encode 0 p.messages ++ handlers) .attempts from rfl, reject_sends]
          obtain ⟨id, he, _⟩ := reject_handlers (M := M) (X := X) .attempts
          rw [he]
          simp [started]
          omega
        · rename_i hge
          rw [e]
          simp only [left, hc, ho, promises, promises_sendAll, if_pos]
          omega
    | writing pre m post b hm hp hb hc ho hs hl => rw [ho] at ho'; cases ho'
    | ended hc ho pre post hm hs hg he => rw [ho] at ho'; cases ho'
  | wrote =>
    obtain ⟨b, ho'⟩ := hm
    cases hph with
    | connecting hc ho hs hl => rw [ho] at ho'; cases ho'
    | writing pre m post b hm hp hb hc ho hs hl =>
      have e : left p s = post.length + 1
          + (((bodies p.encode p.messages).flatMap RawMsg.write).length - s.got) := by
        simp [left, hc, ho, promises_sendAll]
      simp only [step, ho]
      have := left_carry (p := p) (s := s) post (pre.length + 1) .nothing [] rfl
        (settle toRej s.client (.resolve .nothing)) (by rw [hc]; rfl)
      omega
    | ended hc ho pre post hm hs hg he => rw [ho] at ho'; cases ho'
  | arrive k =>
    have hpos : 0 < ((s.sent.drop s.got).take k).length := hm
    obtain ⟨bs, hbs, hs⟩ := sent_bodies hph
    have hle : s.sent.length ≤ ((bodies p.encode p.messages).flatMap RawMsg.write).length := by
      obtain ⟨r, hr⟩ := hbs
      rw [hs, ← hr, List.flatMap_append, List.length_append]
      omega
    have hlen : s.got + ((s.sent.drop s.got).take k).length ≤ s.sent.length := by
      rw [List.length_take, List.length_drop]; omega
    have e : left p (step p s (.arrive k)) + s.got + ((s.sent.drop s.got).take k).length = left p s + s.got := by
      have e1 : left p (step p s (.arrive k))
        = (match s.client with | .waiting rest => promises rest + 1 | .over => 0)
          + (if s.op = some .connect then (p.attempts - s.failed).toNat else 0)
          + (((bodies p.encode p.messages).flatMap RawMsg.write).length
            - (s.got + ((s.sent.drop s.got).take k).length)) := rfl
      rw [e1, left]
      omega
    omega
  | writeFailed e => exact hm.elim
  | lost e => exact hm.elim

theorem busy_left {p : Prog M X} {s : Sys M X} {gw gr : Prop} (hi : Inv p s gw gr) (h : List In) (hb : Busy p s h) :
    h.length ≤ left p s := by
  induction h generalizing s gw gr with
  | nil => simp
  | cons i h ih =>
    have h1 := left_step hi i hb.1
    have h2 := ih (inv_step hi i) hb.2
    simp only [List.length_cons]
    omega

theorem left_start (p : Prog M X) : left p (start p) = p.messages.length + 1 + p.attempts.toNat
    + ((bodies p.encode p.messages).flatMap RawMsg.write).length := by
  simp [left, start, carry, client, advance, started, promises, promises_sendAll]

/-- C134: without failures of reads and writes there are only so many things that can happen. -/
theorem busy_bound (p : Prog M X) (h : List In) (hb : Busy p (start p) h) :
    h.length ≤ p.messages.length + 1 + p.attempts.toNat
      + ((bodies p.encode p.messages).flatMap RawMsg.write).length := by
  rw [← left_start]
  exact busy_left (inv_start p True True) h hb

/-- C134: and they can all happen, with every attempt to connect successful. -/
theorem quiet_reached (p : Prog M X) :
    ∃ h, Busy p (start p) h ∧ Holds h ∧ h.count (.attempt false) = 0 ∧ Quiet p (run p h) := by
  have key : ∀ n (s : Sys M X), Inv p s True True → left p s ≤ n →
      ∃ h, Busy p s h ∧ Holds h ∧ h.count (.attempt false) = 0 ∧ Quiet p (h.foldl (step p) s) := by
    intro n
    induction n with
    | zero =>
      intro s hi hl
      refine ⟨[], trivial, ⟨by simp, by simp⟩, rfl, ?_⟩
      intro i hm
      have := left_step hi i hm
      omega
    | succ n ih =>
      intro s hi hl
      by_cases hq : Quiet p s
      · exact ⟨[], trivial, ⟨by simp, by simp⟩, rfl, hq⟩
      · have : ∃ i, Moves p s i ∧ i ≠ .attempt false := by
          apply Classical.byContradiction
          intro hno
          apply hq
          intro i hm
          by_cases hi : i = .attempt false
          · subst hi; exact hno ⟨.attempt true, hm, by simp⟩
          · exact hno ⟨i, hm, hi⟩
        obtain ⟨i, hm, hne⟩ := this
        have hi' : Inv p (step p s i) True True := by
          have := inv_step hi i
          have e1 : (True ∧ ∀ e, i ≠ .writeFailed e) = True := by
            apply propext; simp; rintro e rfl; exact hm
          have e2 : (True ∧ ∀ e, i ≠ .lost e) = True := by
            apply propext; simp; rintro e rfl; exact hm
          rw [e1, e2] at this
          exact this
        obtain ⟨h, hb, hh, hc, hq⟩ := ih _ hi' (by have := left_step hi i hm; omega)
        refine ⟨i :: h, ⟨hm, hb⟩, ⟨?_, ?_⟩, ?_, hq⟩
        · intro e he
          rcases List.mem_cons.1 he with rfl | he
          · exact hm
          · exact hh.1 e he
        · intro e he
          rcases List.mem_cons.1 he with rfl | he
          · exact hm
          · exact hh.2 e he
        · rw [List.count_cons_of_ne hne, hc]
  exact key _ (start p) (inv_start p _ _) (Nat.le_refl _)

/-! ## Where the process does not end -/

theorem failing (p : Prog M X) (k : Nat) (hk : k ≤ p.attempts.toNat) :
    run p (List.replicate k (.attempt false)) = { start p with failed := k } := by
  induction k with
  | zero => rfl
  | succ k ih =>
    rw [List.replicate_succ', run_snoc, ih (by omega)]
    have : ¬ ((k : Int) ≥ p.attempts) := by omega
    simp [step, start, carry, client, advance, started, this]

/-- C134 fails: if the client gives up, nothing was sent, the server still waits, and `io.run()` does not return. -/
theorem gave_up_violated (p : Prog M X) :
    Quiet p (run p (List.replicate (p.attempts.toNat + 1) (.attempt false)))
    ∧ (run p (List.replicate (p.attempts.toNat + 1) (.attempt false))).seen = []
    ∧ ¬ Done (run p (List.replicate (p.attempts.toNat + 1) (.attempt false))) := by
  have e : run p (List.replicate (p.attempts.toNat + 1) (.attempt false))
      = carry { start p with failed := p.attempts.toNat + 1 } (.over, [.handled 2 .attempts, .stopped]) := by
    rw [List.replicate_succ', run_snoc, failing p _ (Nat.le_refl _)]
    have : ((p.attempts.toNat : Nat) : Int) ≥ p.attempts := by omega
    have e2 : rejectTo (sendAll p.encode 0 p.messages ++ handlers) Rej.attempts
      = [.handled 2 .attempts, .stopped] := by rw [reject_sends]; rfl
    have e3 : rejectTo (.tap 1 (fun _ => none) :: (sendAll p.encode 0 p.messages ++ handlers)) Rej.attempts
      = [.handled 2 .attempts, .stopped] := e2
    simp [step, start, carry, client, advance, started, settle, this, e3]
    omega
  rw [e]
  refine ⟨?_, rfl, ?_⟩
  · intro i
    cases i <;> simp [Moves, carry, start, client, advance, started, Op.bytes]
  · simp [Done, carry, start]

/-- C134 fails: so it is if nothing in what can be sent settles the server's pipeline, as when a message that cannot be
encoded keeps the terminating one from being sent. -/
theorem unsettled_violated (p : Prog M X) (hfit : Fits p) (hatt : 0 ≤ p.attempts)
    (hn : ∀ o ∈ reception p.app (bodies p.encode p.messages), settles o = false) :
    ∃ h, Holds h ∧ Quiet p (run p h) ∧ ¬ Done (run p h) := by
  obtain ⟨h, hb, hh, hc, hq⟩ := quiet_reached p
  refine ⟨h, hh, hq, ?_⟩
  rw [done_iff p h hq, quiet_outcome_partial p hfit h hh hq (by omega)]
  rintro ⟨o, ho, hs⟩
  rw [hn o ho] at hs
  cases hs

/-! Examples: messages are numbers below 200, encoded in a byte; those from 200 on cannot be encoded. -/

def sample (ms : List Nat) : Prog Nat Unit :=
  ⟨fun n => if n < 200 then .ok [BitVec.ofNat 8 n] else .error (), RawMsg.sampleApp, 2, ms⟩

/-- A whole conversation; the bytes arrive in odd pieces and out of step with the completions of the writes. -/
def talk : List In :=
  [.attempt false, .attempt false, .attempt true, .arrive 3, .wrote, .arrive 4, .wrote, .arrive 3, .wrote, .arrive 100]

example : (run (sample [5, 6, 1]) talk).seen = [.action 5, .action 6, .action 1, .closed, .resolved 1]
    ∧ Done (run (sample [5, 6, 1]) talk) := by
  constructor
  · decide +kernel
  · constructor <;> decide +kernel

example : Talk (sample [5, 6, 1]) [5, 6] 1 := by
  refine ⟨rfl, ?_, ?_, rfl, ?_⟩
  · intro m hm
    simp [sample] at hm
    rcases hm with rfl | rfl | rfl <;> exact ⟨_, rfl, by decide⟩
  · intro m hm
    simp at hm
    rcases hm with rfl | rfl <;> decide
  · intro m hm
    simp [sample] at hm
    rcases hm with rfl | rfl | rfl <;> decide

example : Fits (sample [5, 6, 1]) := by
  intro b hb
  simp [sample, bodies] at hb
  rcases hb with rfl | rfl | rfl <;> simp

example : Holds talk := by
  constructor <;> intro e he <;> simp [talk] at he

example : (talk.count (.attempt false) : Int) ≤ (sample [5, 6, 1]).attempts := by decide

/-- The write of the second message fails. -/
example : (run (sample [5, 6, 1]) [.attempt true, .arrive 100, .wrote, .writeFailed 3, .arrive 100, .lost 7]).seen
    = [.action 5, .action 6, .rejectedIo 7] := by decide +kernel

/-- The second message cannot be encoded: the first is acted on, and the server waits for the next one. -/
example : (run (sample [5, 250, 1]) [.attempt true, .wrote, .arrive 100]).seen = [.action 5]
    ∧ ¬ Done (run (sample [5, 250, 1]) [.attempt true, .wrote, .arrive 100]) := by
  constructor
  · decide +kernel
  · rintro ⟨-, h⟩
    exact absurd h (by decide +kernel)

example : ∀ o ∈ reception (sample [5, 250, 1]).app (bodies (sample [5, 250, 1]).encode (sample [5, 250, 1]).messages),
    settles o = false := by decide +kernel

end Nbdl.Pipes
