import Verif.WsApi.Spec
/-! # The endpoint of the browser: the properties -/
namespace Nbdl.WsApi
open Spec

variable {J : Type}

/-! ## Lemmas -/

theorem after_append (r : Ready) (a b : List (Act J)) : after r (a ++ b) = after (after r a) b := by
  induction a generalizing r with
  | nil => rfl
  | cons x a ih => simp [after, ih]

theorem run_seen (js : Json J) (h as : List (Act J)) (s : St)
    (hs : s.ready = after .connecting h)
    (ha : s.alive = true ∨ s.ready = .closed)
    (hk : keeps s.ready as) :
    run js s as = .ok (seen js h as) := by
  induction as generalizing s h with
  | nil => rfl
  | cons a as ih =>
    obtain ⟨hd, hk⟩ := hk
    have e : after .connecting (h ++ [a]) = after s.ready [a] := by rw [after_append, ← hs]
    have key : ∃ s', step js s a = .ok (s', shown js h a) ∧ s'.ready = after s.ready [a] ∧
        (s'.alive = true ∨ s'.ready = .closed) := by
      rcases s with ⟨r, al⟩
      simp only at hs ha
      simp only [shown, ← hs]
      simp only at hd
      clear hs e hk ih
      cases a with
      | opened =>
        cases r <;> cases al <;> simp_all [step, after]
      | message d =>
        cases r <;> cases al <;> simp_all [step, after] <;> cases d <;> simp [convertJson]
        rename_i t
        cases js.parse t <;> simp
      | closed c => cases r <;> cases al <;> simp_all [step, after]
      | send j => cases r <;> cases al <;> simp_all [step, after]
      | close => cases r <;> cases al <;> simp_all [step, after]
      | destroy => cases r <;> cases al <;> simp_all [step, after]
    obtain ⟨s', h1, h2, h3⟩ := key
    rw [run, h1]
    simp only [Cpp.bind, seen]
    rw [ih (h ++ [a]) s' (by rw [h2, e]) h3 (by rw [h2]; exact hk)]
    rfl

/-! ## C92 — what happens on the connection is reported -/

/-- **C92 (partial).** In every history in which the endpoint is not destroyed before the connection is
closed: opening, each message with the value of its JSON text, and the closing are reported to the
handler in the order in which they happened, each once, and nothing undefined happens.  Missing: see
`destroyed_violated`, `token_violated`. -/
theorem reported_partial (js : Json J) (as : List (Act J)) (hk : keeps .connecting as) :
    run js St.init as = .ok (seen js [] as) :=
  run_seen js [] as St.init rfl (.inl rfl) hk

/-- The values of the messages reported. -/
def messages (o : List (Out J)) : List J := o.filterMap fun | .onMessage j => some j | _ => none

/-- The texts sent. -/
def texts (o : List (Out J)) : List JsText := o.filterMap fun | .sent t => some t | _ => none

theorem seen_open (js : Json J) (h as : List (Act J)) (ho : after .connecting h = .open)
    (hm : ∀ a ∈ as, (∃ d, a = .message d) ∨ ∃ j, a = .send j) :
    messages (seen js h as) = (as.filterMap fun | .message (.text t) => js.parse t | _ => none) ∧
    texts (seen js h as) = (as.filterMap fun | .send j => some (js.stringify j) | _ => none) := by
  induction as generalizing h with
  | nil => exact ⟨rfl, rfl⟩
  | cons a as ih =>
    have hm' : ∀ a ∈ as, (∃ d, a = .message d) ∨ ∃ j, a = .send j := fun x hx => hm x (by simp [hx])
    rcases hm a (by simp) with ⟨d, rfl⟩ | ⟨j, rfl⟩
    · have := ih (h ++ [.message d]) (by rw [after_append, ho]; rfl) hm'
      cases d with
      | text t =>
        cases hp : js.parse t <;>
          simp_all [seen, shown, messages, texts, List.filterMap_append]
      | buffer b => simp_all [seen, shown, messages, texts, List.filterMap_append]
    · have := ih (h ++ [.send j]) (by rw [after_append, ho]; rfl) hm'
      simp_all [seen, shown, messages, texts, List.filterMap_append]

/-- **C92, C93.** While the connection is open, the handler gets exactly the values of the JSON texts
that arrive, in order, and exactly the values passed to `send_message` are sent as JSON texts, in
order, however the two are interleaved. -/
theorem open_exact (js : Json J) (as : List (Act J))
    (hm : ∀ a ∈ as, (∃ d, a = .message d) ∨ ∃ j, a = .send j) :
    ∃ o, run js St.init (.opened :: as) = .ok o ∧
      messages o = (as.filterMap fun | .message (.text t) => js.parse t | _ => none) ∧
      texts o = (as.filterMap fun | .send j => some (js.stringify j) | _ => none) := by
  have hk : ∀ (r : Ready) (as : List (Act J)),
      (∀ a ∈ as, (∃ d, a = Act.message d) ∨ ∃ j, a = .send j) → keeps r as := by
    intro r as hm
    induction as generalizing r with
    | nil => trivial
    | cons a as ih =>
      refine ⟨?_, ih _ fun x hx => hm x (by simp [hx])⟩
      rcases hm a (by simp) with ⟨d, rfl⟩ | ⟨j, rfl⟩ <;> trivial
  refine ⟨_, reported_partial js (.opened :: as) ⟨trivial, hk _ as hm⟩, ?_⟩
  obtain ⟨h1, h2⟩ := seen_open js [.opened] as rfl hm
  constructor
  · rw [← h1]; simp [seen, shown, after, messages]
  · rw [← h2]; simp [seen, shown, after, texts]

/-- Values sent by one side of two such endpoints arrive at the other, if JSON texts are read back. -/
theorem values_arrive (js : Json J) (hj : ∀ j, js.parse (js.stringify j) = some j) (vs : List J) :
    ∃ o o', run js St.init (.opened :: vs.map .send) = .ok o ∧
      run js St.init (.opened :: (texts o).map fun t => .message (.text t)) = .ok o' ∧
      messages o' = vs := by
  obtain ⟨o, ho, -, h2⟩ := open_exact js (vs.map Act.send) (by simp)
  have e : texts o = vs.map js.stringify := by
    rw [h2, List.filterMap_map]
    clear ho h2
    induction vs with
    | nil => rfl
    | cons v vs ih => simp [ih]
  obtain ⟨o', ho', h1, -⟩ := open_exact js ((texts o).map fun t => Act.message (.text t)) (by simp)
  refine ⟨o, o', ho, ho', ?_⟩
  rw [h1, e, List.map_map, List.filterMap_map]
  clear ho ho' h1 h2 e
  induction vs with
  | nil => rfl
  | cons v vs ih => simp_all

/-- JSON for the examples: one unit is a value. -/
def exJson : Json Nat where
  parse
    | [u] => some u.toNat
    | _ => none
  stringify j := [BitVec.ofNat 16 j]

example : run exJson St.init [.opened, .send 5, .message (.text [7]), .message (.text [1, 2]), .close,
    .message (.text [8]), .closed 1000, .destroy]
    = .ok [.onReady, .sent [5], .onMessage 7, .threw, .onClose] := by
  rw [reported_partial _ _ (by simp [keeps, after])]
  decide +kernel

/-- **C92 is violated** when the endpoint is destroyed before the connection is closed: it stays
registered with the browser, and whatever the connection does next uses the destroyed object. -/
theorem destroyed_violated (js : Json J) :
    (∀ d, run js St.init [.opened, .destroy, .message d] = .ub) ∧
    run js St.init [.opened, .close, .destroy, .closed 1000] = .ub ∧
    run js St.init [.destroy, .opened] = .ub :=
  ⟨fun _ => rfl, rfl, rfl⟩

/-- **C92 is violated**: the authentication token and the origin of the endpoint are not used, so that
no server can tell two clients apart by them. -/
theorem token_violated (c : Client) (t o : JsText) :
    connect { c with authToken := t, origin := o } = connect c := rfl

/-! ## C93 — what is sent arrives -/

/-- **C93 is violated**: nothing sent before the connection is open is kept for later; the call
throws. -/
theorem send_early_violated (js : Json J) (j : J) :
    run js St.init [.send j, .opened] = .ok [.threw, .onReady] := rfl

/-! ## C94 — payloads of bytes -/

/-- **C94 is violated**: sending a vector sends the whole memory of the program, and never just the
bytes of the vector unless they are all there is. -/
theorem send_bytes_violated (heap : List Byte) (data size : Nat) (h : data + size ≤ heap.length) :
    sendBytes heap data size = heap ∧
    (sendBytes heap data size = (heap.drop data).take size ↔ data = 0 ∧ size = heap.length) := by
  refine ⟨rfl, ?_, ?_⟩
  · intro e
    have := congrArg List.length e
    simp only [sendBytes, subarray, List.length_take, List.length_drop] at this
    omega
  · rintro ⟨rfl, rfl⟩
    simp [sendBytes, subarray]

example : sendBytes [1, 2, 3, 4] 1 2 = [1, 2, 3, 4] ∧ ([1, 2, 3, 4].drop 1).take 2 = [2, 3] := by decide

/-- **C94 is violated**: whatever arrives, text or bytes, the vector given to the handler is empty,
unless memory after the vector was overwritten. -/
theorem receive_bytes_violated (p : Vec) (ds : List Data) (r : List (List Byte))
    (h : receiveBytes p ds = .ok r) : r = ds.map fun _ => [] := by
  induction ds generalizing p r with
  | nil => simp [receiveBytes] at h; simp [← h]
  | cons d ds ih =>
    rw [receiveBytes] at h
    cases hc : convertBytes d p with
    | ub => simp [hc, Cpp.bind] at h
    | ok v =>
      rw [hc] at h
      simp only [Cpp.bind] at h
      cases hr : receiveBytes v ds with
      | ub => simp [hr, Cpp.map] at h
      | ok r' =>
        rw [hr] at h
        simp only [Cpp.map, Cpp.ok.injEq] at h
        have hv : v.elems = [] := by
          cases d with
          | text t =>
            simp only [convertBytes] at hc
            split at hc
            · simp only [Cpp.ok.injEq] at hc; rw [← hc]; rfl
            · cases hc
          | buffer b => simp only [convertBytes, Cpp.ok.injEq] at hc; rw [← hc]; rfl
        rw [← h, hv, ih v r' hr]
        simp

example : receiveBytes ⟨[], 8⟩ [.text [104, 105], .buffer [1, 2, 3]] = .ok [[], []] := by rfl

/-- **C94 is violated**: the first text that arrives is written one byte past the end of the vector's
memory; so is any text that is as long as the memory. -/
theorem receive_text_violated (t : JsText) (ht : t ≠ []) (ds : List Data) :
    receiveBytes ⟨[], 0⟩ (.text t :: ds) = .ub := by
  have : 0 < t.length := List.length_pos_iff.mpr ht
  have e : convertBytes (.text t) ⟨[], 0⟩ = .ub := by
    have h : ¬ t.length + 1 ≤ ((Vec.mk [] 0).resize (Data.text t).length).clear.capacity := by
      have h0 : ¬ (Data.text t).length ≤ (Vec.mk [] 0).capacity := by
        show ¬ t.length ≤ 0
        omega
      have h1 : (Data.text t).length = t.length := rfl
      rw [Vec.clear, Vec.resize, if_neg h0, h1]
      simp only
      omega
    exact if_neg h
  rw [receiveBytes, e]
  rfl

end Nbdl.WsApi
