import Verif.Server.Props
/-!
# Exactly which client is served (C87)
-/
namespace Nbdl.Server
open Spec

namespace Spec

/-- Whether client `c` has hung up. -/
def gone (c : Nat) (es : List Ev) : Bool := es.contains (.hangup c)

/-- What a network lets happen: a client connects once, sends only while it is connected, and hangs up once. -/
def Orderly (es : List Ev) : Prop :=
  ∀ xs e ys, es = xs ++ e :: ys → match e with
    | .connect c => Ev.connect c ∉ xs
    | .data c _ => Ev.connect c ∈ xs ∧ Ev.hangup c ∉ xs
    | .hangup c => Ev.connect c ∈ xs ∧ Ev.hangup c ∉ xs

/-- A parser of requests stops at the end of the first one. -/
def StopsAtEnd {R} (parse : List Byte → Parsed R) : Prop :=
  ∀ b r rest x, parse b = .done r rest → parse (b ++ x) = .done r (rest ++ x)

/-- In what the clients have sent, one after the other in the order in which they connected, the parser finds no error. -/
def NoError {R} (parse : List Byte → Parsed R) (es : List Ev) : Prop :=
  ∀ p q, (clients es).flatMap (fun c => sentBy c es) = p ++ q → ∀ rest, parse p ≠ .bad rest

/-- The first request, given `before`, what earlier clients have sent: one client after the other, each only when the
one before has hung up, and what that one sent counts as the beginning of the request. -/
def firstRequest {R} (parse : List Byte → Parsed R) (sent : Nat → List Byte) (left : Nat → Bool) :
    List Byte → List Nat → Option (Nat × R)
  | _, [] => none
  | before, c :: cs =>
    match parse (before ++ sent c) with
    | .done r _ => some (c, r)
    | .more => if left c then firstRequest parse sent left (before ++ sent c) cs else none
    | .bad _ => none

end Spec

theorem sentBy_snoc (c : Nat) (es : List Ev) (e : Ev) : sentBy c (es ++ [e]) = sentBy c es ++ sentBy c [e] := by
  simp [sentBy]

theorem sentBy_append (c : Nat) (es fs : List Ev) : sentBy c (es ++ fs) = sentBy c es ++ sentBy c fs := by
  simp [sentBy]

theorem clients_append (es fs : List Ev) : clients (es ++ fs) = clients es ++ clients fs := by
  simp [clients]

theorem gone_append (c : Nat) (es fs : List Ev) : gone c (es ++ fs) = (gone c es || gone c fs) := by
  simp [gone]

theorem gone_iff (c : Nat) (es : List Ev) : gone c es = true ↔ Ev.hangup c ∈ es := by simp [gone]

theorem mem_clients (c : Nat) (es : List Ev) : c ∈ clients es ↔ Ev.connect c ∈ es := by
  simp only [clients, List.mem_filterMap]
  constructor
  · rintro ⟨e, he, h⟩
    cases e <;> simp at h
    subst h; exact he
  · intro h
    exact ⟨_, h, rfl⟩

theorem Spec.Orderly.left {xs ys : List Ev} (h : Orderly (xs ++ ys)) : Orderly xs := by
  intro as e bs he
  exact h as e (bs ++ ys) (by rw [he]; simp)

theorem snocInd {α : Type} {P : List α → Prop} (h0 : P []) (h1 : ∀ l a, P l → P (l ++ [a])) (l : List α) : P l := by
  have : ∀ r : List α, P r.reverse := by
    intro r
    induction r with
    | nil => exact h0
    | cons a r ih => rw [List.reverse_cons]; exact h1 _ _ ih
  have h := this l.reverse
  rwa [List.reverse_reverse] at h

/-- Who has not connected has sent nothing. -/
theorem sentBy_unconnected {es : List Ev} (h : Orderly es) {c : Nat} (hc : Ev.connect c ∉ es) : sentBy c es = [] := by
  have hn : ∀ bs, Ev.data c bs ∉ es := by
    intro bs hm
    obtain ⟨xs, ys, e⟩ := List.append_of_mem hm
    exact hc (by rw [e]; simp [(h xs _ ys e).1])
  simp only [sentBy, List.flatten_eq_nil_iff, List.mem_map]
  rintro l ⟨e, he, rfl⟩
  cases e with
  | connect d => rfl
  | hangup d => rfl
  | data d bs =>
    simp only
    split
    · rename_i hd; subst hd; exact absurd he (hn bs)
    · rfl

theorem gone_unconnected {es : List Ev} (h : Orderly es) {c : Nat} (hc : Ev.connect c ∉ es) : gone c es = false := by
  cases hg : gone c es with
  | false => rfl
  | true =>
    obtain ⟨xs, ys, e⟩ := List.append_of_mem ((gone_iff c es).1 hg)
    exact absurd (by rw [e]; simp [(h xs _ ys e).1]) hc

/-- Who has hung up sends no more. -/
theorem sentBy_gone {es fs : List Ev} (h : Orderly (es ++ fs)) {c : Nat} (hg : gone c es = true) :
    sentBy c (es ++ fs) = sentBy c es := by
  rw [sentBy_append]
  have hm := (gone_iff c es).1 hg
  have hn : ∀ bs, Ev.data c bs ∉ fs := by
    intro bs hb
    obtain ⟨xs, ys, e⟩ := List.append_of_mem hb
    exact (h (es ++ xs) (.data c bs) ys (by rw [e]; simp)).2 (by simp [hm])
  have : sentBy c fs = [] := by
    simp only [sentBy, List.flatten_eq_nil_iff, List.mem_map]
    rintro l ⟨e, he, rfl⟩
    cases e with
    | connect d => rfl
    | hangup d => rfl
    | data d bs =>
      simp only
      split
      · rename_i hd; subst hd; exact absurd he (hn bs)
      · rfl
  rw [this, List.append_nil]

theorem clients_nodup (es : List Ev) : Orderly es → (clients es).Nodup := by
  refine snocInd (P := fun es => Orderly es → (clients es).Nodup) (fun _ => by simp [clients]) ?_ es
  intro es e ih h
  rw [clients_append]
  have := ih h.left
  cases e with
  | data c bs => simpa [clients] using this
  | hangup c => simpa [clients] using this
  | connect c =>
    have hl : Ev.connect c ∉ es := h es (.connect c) [] rfl
    have e1 : clients [Ev.connect c] = [c] := rfl
    rw [e1, List.nodup_append]
    refine ⟨this, by simp, ?_⟩
    intro a ha b hb
    simp at hb
    subst hb
    rintro rfl
    exact hl ((mem_clients _ _).1 ha)

/-- The state before the first request: the clients in `D` have come and gone, those in `cs` wait. -/
structure Waits {R} (parse : List Byte → Parsed R) (es : List Ev) (D cs : List Nat) (a : A R) : Prop where
  split : clients es = D ++ a.reading.toList ++ cs
  request : a.request = none
  served : a.served = []
  buffer : a.buffer = (D ++ a.reading.toList).flatMap (fun c => sentBy c es)
  inbox : ∀ c ∈ cs, a.inbox c = sentBy c es ∧ a.hung c = gone c es
  here : ∀ c, a.reading = some c → a.hung c = false ∧ gone c es = false
  left : ∀ d ∈ D, gone d es = true
  more : ∀ D1 d D2, D ++ a.reading.toList = D1 ++ d :: D2 →
    parse ((D1 ++ [d]).flatMap (fun c => sentBy c es)) = .more
  fresh : ∀ c, Ev.connect c ∉ es → a.inbox c = [] ∧ a.hung c = false

/-- The state after the first request, of the whole history `F`. -/
def Answered {R} (parse : List Byte → Parsed R) (upgrade : R → Bool) (F : List Ev) (a : A R) : Prop :=
  (∃ r, a.request = some r) ∧ ∃ x, firstRequest parse (fun c => sentBy c F) (fun c => gone c F) [] (clients F) = some x ∧
    a.served = if upgrade x.2 then [x] else []

theorem parseMore_answered {R} {parse : List Byte → Parsed R} {upgrade : R → Bool} {F : List Ev} {c : Nat}
    {bs : List Byte} {a a' : A R} (h : Answered parse upgrade F a) (e : parseMore parse upgrade c bs a = .ok a') :
    Answered parse upgrade F a' := by
  obtain ⟨⟨r, hr⟩, x, hx, hs⟩ := h
  rw [parseMore] at e
  split at e
  · split at e <;> (cases e; exact ⟨⟨r, hr⟩, x, hx, hs⟩)
  · cases e; exact ⟨⟨r, hr⟩, x, hx, hs⟩
  · rw [hr] at e; simp at e

theorem acceptAll_answered {R} {parse : List Byte → Parsed R} {upgrade : R → Bool} {F : List Ev} :
    ∀ {cs : List Nat} {a a' : A R}, Answered parse upgrade F a → acceptAll parse upgrade cs a = .ok a' →
      Answered parse upgrade F a'
  | [], a, a', h, e => by rw [acceptAll] at e; cases e; exact h
  | c :: cs, a, a', h, e => by
    rw [acceptAll] at e
    split at e
    · cases e; exact h
    · cases hp : parseMore parse upgrade c (a.inbox c) a with
      | ub => rw [hp] at e; cases e
      | ok b =>
        rw [hp] at e
        exact acceptAll_answered (parseMore_answered h hp) e

theorem acceptStep_answered {R} {parse : List Byte → Parsed R} {upgrade : R → Bool} {F : List Ev} {ev : Ev}
    {a a' : A R} (h : Answered parse upgrade F a) (e : acceptStep parse upgrade a ev = .ok a') :
    Answered parse upgrade F a' := by
  cases ev with
  | connect c => exact acceptAll_answered h e
  | data c bs =>
    rw [acceptStep] at e
    split at e
    · cases hp : parseMore parse upgrade c bs a with
      | ub => rw [hp] at e; cases e
      | ok b =>
        rw [hp] at e
        exact acceptAll_answered (parseMore_answered h hp) e
    · cases e; exact h
  | hangup c =>
    rw [acceptStep] at e
    split at e
    · exact acceptAll_answered (a := { a with reading := none }) h e
    · cases e; exact h

theorem acceptRun_answered {R} {parse : List Byte → Parsed R} {upgrade : R → Bool} {F : List Ev} :
    ∀ {es : List Ev} {a a' : A R}, Answered parse upgrade F a → acceptRun parse upgrade es a = .ok a' →
      Answered parse upgrade F a'
  | [], a, a', h, e => by rw [acceptRun] at e; cases e; exact h
  | ev :: es, a, a', h, e => by
    rw [acceptRun] at e
    cases hp : acceptStep parse upgrade a ev with
    | ub => rw [hp] at e; cases e
    | ok b =>
      rw [hp] at e
      exact acceptRun_answered (acceptStep_answered h hp) e

/-- Past clients who came and went with nothing whole. -/
theorem firstRequest_skip {R} (parse : List Byte → Parsed R) (sent : Nat → List Byte) (left : Nat → Bool) (L : List Nat) :
    ∀ (D : List Nat) (b : List Byte), (∀ d ∈ D, left d = true) →
      (∀ D1 d D2, D = D1 ++ d :: D2 → parse (b ++ (D1 ++ [d]).flatMap sent) = .more) →
      firstRequest parse sent left b (D ++ L) = firstRequest parse sent left (b ++ D.flatMap sent) L
  | [], b, _, _ => by simp
  | d :: D, b, hl, hm => by
    have h1 : parse (b ++ sent d) = .more := by simpa using hm [] d D rfl
    have h2 : left d = true := hl d (by simp)
    rw [List.cons_append, firstRequest, h1]
    simp only [h2, if_true]
    rw [firstRequest_skip parse sent left L D (b ++ sent d) (fun x hx => hl x (by simp [hx]))]
    · simp
    · intro D1 x D2 e
      have := hm (d :: D1) x D2 (by simp [e])
      simpa using this

theorem flatMap_congr {α β : Type} {l : List α} {f g : α → List β} (h : ∀ a ∈ l, f a = g a) :
    l.flatMap f = l.flatMap g := by
  induction l with
  | nil => rfl
  | cons a l ih => simp only [List.flatMap_cons]; rw [h a (by simp), ih fun x hx => h x (by simp [hx])]

/-- One call of the parser, before the first request. -/
theorem parseMore_waits {R} {parse : List Byte → Parsed R} {upgrade : R → Bool} {es fs : List Ev}
    (ho : Orderly (es ++ fs)) (hst : StopsAtEnd parse) (hne : NoError parse (es ++ fs))
    {D cs : List Nat} {c : Nat} {bs : List Byte} {a a' : A R}
    (split : clients es = D ++ c :: cs) (request : a.request = none) (served : a.served = [])
    (buffer : a.buffer ++ bs = (D ++ [c]).flatMap (fun c => sentBy c es))
    (inbox : ∀ c ∈ cs, a.inbox c = sentBy c es ∧ a.hung c = gone c es)
    (hung : a.hung c = gone c es) (left : ∀ d ∈ D, gone d es = true)
    (more : ∀ D1 d D2, D = D1 ++ d :: D2 → parse ((D1 ++ [d]).flatMap (fun c => sentBy c es)) = .more)
    (fresh : ∀ c, Ev.connect c ∉ es → a.inbox c = [] ∧ a.hung c = false)
    (e : parseMore parse upgrade c bs a = .ok a') :
    (∃ D', Waits parse es D' cs a') ∨ Answered parse upgrade (es ++ fs) a' := by
  have hD : ∀ d ∈ D, sentBy d (es ++ fs) = sentBy d es := fun d hd => sentBy_gone ho (left d hd)
  have hf : D.flatMap (fun c => sentBy c (es ++ fs)) = D.flatMap (fun c => sentBy c es) := flatMap_congr hD
  have hmore' : ∀ (X : List Nat), parse ((D ++ [c]).flatMap (fun c => sentBy c es)) = .more →
      ∀ D1 d D2, D ++ [c] = D1 ++ d :: D2 → parse ((D1 ++ [d]).flatMap (fun c => sentBy c es)) = .more := by
    intro _ hp D1 d D2 h
    rcases List.eq_nil_or_concat D2 with h2 | ⟨D3, y, h2⟩
    · subst h2
      rw [← h]; exact hp
    · subst h2
      have h' : D ++ [c] = (D1 ++ d :: D3) ++ [y] := by rw [h]; simp
      have h'' := List.append_inj' h' rfl
      exact more D1 d D3 h''.1
  rw [parseMore, buffer] at e
  cases hp : parse ((D ++ [c]).flatMap fun c => sentBy c es) with
  | more =>
    rw [hp] at e
    simp only at e
    cases hg : gone c es with
    | true =>
      rw [hung, hg] at e
      simp only [if_true] at e
      cases e
      refine .inl ⟨D ++ [c], ?_⟩
      refine ⟨by simp [split], request, served, by simp, inbox, by simp, ?_, ?_, fresh⟩
      · intro d hd
        rcases List.mem_append.1 hd with h | h
        · exact left d h
        · rw [List.mem_singleton.1 h]; exact hg
      · intro D1 d D2 h
        exact hmore' [] hp D1 d D2 (by simpa using h)
    | false =>
      rw [hung, hg] at e
      simp only [Bool.false_eq_true, if_false] at e
      cases e
      refine .inl ⟨D, ?_⟩
      refine ⟨by simp [split], request, served, by simp, inbox, ?_, left, ?_, fresh⟩
      · intro c' hc'
        have : c = c' := by simpa using hc'
        subst this
        exact ⟨by rw [hung, hg], hg⟩
      · intro D1 d D2 h
        exact hmore' [] hp D1 d D2 (by simpa using h)
  | bad rest =>
    exfalso
    refine hne ((D ++ [c]).flatMap fun c => sentBy c es)
      (sentBy c fs ++ (cs ++ clients fs).flatMap fun c => sentBy c (es ++ fs)) ?_ rest hp
    rw [clients_append, split]
    rw [List.append_assoc, List.flatMap_append, hf]
    simp [sentBy_append]
  | done r rest =>
    rw [hp] at e
    simp only [request] at e
    cases e
    refine .inr ⟨⟨r, rfl⟩, (c, r), ?_, by simp [served]⟩
    rw [clients_append, split, List.append_assoc, firstRequest_skip]
    · rw [List.nil_append, List.cons_append, firstRequest, hf, sentBy_append]
      have := hst _ _ _ (sentBy c fs) hp
      rw [List.flatMap_append] at this
      simp only [List.flatMap_cons, List.flatMap_nil, List.append_nil, List.append_assoc] at this
      rw [this]
    · intro d hd
      rw [gone_append, left d hd]; rfl
    · intro D1 d D2 h
      rw [List.nil_append]
      rw [flatMap_congr (g := fun c => sentBy c es)]
      · exact more D1 d D2 h
      · intro x hx
        exact hD x (by rw [h]; rcases List.mem_append.1 hx with h | h <;> simp_all)

theorem acceptAll_waits {R} {parse : List Byte → Parsed R} {upgrade : R → Bool} {es fs : List Ev}
    (ho : Orderly (es ++ fs)) (hst : StopsAtEnd parse) (hne : NoError parse (es ++ fs)) :
    ∀ {cs D : List Nat} {a a' : A R}, Waits parse es D cs a → acceptAll parse upgrade cs a = .ok a' →
      (∃ D', Waits parse es D' a'.backlog a' ∧ (a'.reading = none → a'.backlog = [])) ∨
        Answered parse upgrade (es ++ fs) a'
  | [], D, a, a', h, e => by
    rw [acceptAll] at e; cases e
    exact .inl ⟨D, ⟨h.split, h.request, h.served, h.buffer, h.inbox, h.here, h.left, h.more, h.fresh⟩, fun _ => rfl⟩
  | c :: cs, D, a, a', h, e => by
    rw [acceptAll] at e
    split at e
    · rename_i c' hr
      cases e
      exact .inl ⟨D, ⟨h.split, h.request, h.served, h.buffer, h.inbox, h.here, h.left, h.more, h.fresh⟩,
        fun hn => by simp [hr] at hn⟩
    · rename_i hr
      cases hp : parseMore parse upgrade c (a.inbox c) a with
      | ub => rw [hp] at e; cases e
      | ok b =>
        rw [hp] at e
        have hs := h.split
        have hb := h.buffer
        have hm := h.more
        rw [hr] at hs hb hm
        simp only [Option.toList_none, List.append_nil] at hs hb hm
        rcases parseMore_waits ho hst hne (D := D) (cs := cs) hs h.request h.served
          (by rw [hb, (h.inbox c (by simp)).1]; simp) (fun x hx => h.inbox x (by simp [hx]))
          (h.inbox c (by simp)).2 h.left hm h.fresh hp with ⟨D', h'⟩ | h'
        · exact acceptAll_waits ho hst hne h' e
        · exact .inr (acceptAll_answered h' e)

/-- One event, before the first request. -/
theorem acceptStep_waits {R} {parse : List Byte → Parsed R} {upgrade : R → Bool} {es fs : List Ev} {ev : Ev}
    (ho : Orderly ((es ++ [ev]) ++ fs)) (hst : StopsAtEnd parse) (hne : NoError parse ((es ++ [ev]) ++ fs))
    {D : List Nat} {a a' : A R} (h : Waits parse es D a.backlog a) (hi : a.reading = none → a.backlog = [])
    (e : acceptStep parse upgrade a ev = .ok a') :
    (∃ D', Waits parse (es ++ [ev]) D' a'.backlog a' ∧ (a'.reading = none → a'.backlog = [])) ∨
      Answered parse upgrade ((es ++ [ev]) ++ fs) a' := by
  have ho' : Orderly (es ++ [ev]) := ho.left
  have hnd := clients_nodup es ho'.left
  rw [h.split] at hnd
  have hl := ho' es ev [] rfl
  cases ev with
  | connect c =>
    have hc : Ev.connect c ∉ es := hl
    have hs : ∀ d, sentBy d (es ++ [Ev.connect c]) = sentBy d es := by intro d; rw [sentBy_append]; simp [sentBy]
    have hg : ∀ d, gone d (es ++ [Ev.connect c]) = gone d es := by intro d; rw [gone_append]; simp [gone]
    refine acceptAll_waits ho hst hne (D := D) (cs := a.backlog ++ [c]) ?_ e
    refine ⟨?_, h.request, h.served, ?_, ?_, ?_, ?_, ?_, ?_⟩
    · rw [clients_append, h.split]; simp [clients]
    · simp only [hs]; exact h.buffer
    · intro x hx
      rw [hs, hg]
      rcases List.mem_append.1 hx with hx | hx
      · exact h.inbox x hx
      · rw [List.mem_singleton.1 hx, sentBy_unconnected ho'.left hc, gone_unconnected ho'.left hc]
        exact h.fresh c hc
    · simp only [hg]; exact h.here
    · simp only [hg]; exact h.left
    · simp only [hs]; exact h.more
    · intro x hx
      exact h.fresh x fun hm => hx (by simp [hm])
  | data c bs =>
    obtain ⟨hc, hh⟩ : Ev.connect c ∈ es ∧ Ev.hangup c ∉ es := hl
    have hs : ∀ d, d ≠ c → sentBy d (es ++ [Ev.data c bs]) = sentBy d es := by
      intro d hd; rw [sentBy_append]; simp [sentBy, Ne.symm hd]
    have hsc : sentBy c (es ++ [Ev.data c bs]) = sentBy c es ++ bs := by rw [sentBy_append]; simp [sentBy]
    have hg : ∀ d, gone d (es ++ [Ev.data c bs]) = gone d es := by intro d; rw [gone_append]; simp [gone]
    have hgc : gone c es = false := by
      cases hx : gone c es with
      | false => rfl
      | true => exact absurd ((gone_iff c es).1 hx) hh
    have hcD : ∀ d ∈ D, d ≠ c := by
      rintro d hd rfl
      have := h.left d hd
      rw [hgc] at this; cases this
    have hcl : clients (es ++ [Ev.data c bs]) = clients es := by rw [clients_append]; simp [clients]
    rw [acceptStep] at e
    by_cases hr : a.reading = some c
    · rw [if_pos hr] at e
      have hsp := h.split
      have hb := h.buffer
      have hm := h.more
      rw [hr] at hsp hb hm hnd
      simp only [Option.toList_some] at hsp hb hm hnd
      have hcb : ∀ x ∈ a.backlog, x ≠ c := by
        rintro x hx rfl
        rw [List.append_assoc, List.nodup_append] at hnd
        exact (List.nodup_cons.1 hnd.2.1).1 hx
      cases hp : parseMore parse upgrade c bs a with
      | ub => rw [hp] at e; cases e
      | ok b =>
        rw [hp] at e
        have e' : acceptAll parse upgrade b.backlog b = .ok a' := e
        have hbb : b.backlog = a.backlog := by
          rw [parseMore] at hp
          split at hp
          · split at hp <;> (cases hp; rfl)
          · cases hp; rfl
          · rw [h.request] at hp; cases hp; rfl
        rw [hbb] at e'
        rcases parseMore_waits ho hst hne (D := D) (cs := a.backlog) (by rw [hcl, hsp]; simp) h.request h.served
          (by
            rw [hb, List.flatMap_append, List.flatMap_append, flatMap_congr fun d hd => hs d (hcD d hd)]
            simp [hsc])
          (fun x hx => by rw [hs x (hcb x hx), hg]; exact h.inbox x hx)
          (by rw [hg, hgc]; exact (h.here c hr).1)
          (fun d hd => by rw [hg]; exact h.left d hd)
          (fun D1 d D2 hd => by
            rw [flatMap_congr (g := fun c => sentBy c es)]
            · exact hm D1 d (D2 ++ [c]) (by rw [hd]; simp)
            · intro x hx
              exact hs x (hcD x (by rw [hd]; rcases List.mem_append.1 hx with h | h <;> simp_all)))
          (fun x hx => h.fresh x fun hm => hx (by simp [hm])) hp with ⟨D', h'⟩ | h'
        · exact acceptAll_waits ho hst hne h' e'
        · exact .inr (acceptAll_answered h' e')
    · rw [if_neg hr] at e
      cases e
      have hcr : ∀ d ∈ D ++ a.reading.toList, d ≠ c := by
        intro d hd
        rcases List.mem_append.1 hd with hd | hd
        · exact hcD d hd
        · rintro rfl
          exact hr (by simpa using hd)
      refine .inl ⟨D, ⟨?_, h.request, h.served, ?_, ?_, ?_, ?_, ?_, ?_⟩, hi⟩
      · rw [hcl]; exact h.split
      · rw [flatMap_congr fun d hd => hs d (hcr d hd)]; exact h.buffer
      · intro x hx
        show (if x = c then a.inbox c ++ bs else a.inbox x) = _ ∧ a.hung x = _
        have := h.inbox x hx
        by_cases hxc : x = c
        · subst hxc
          rw [if_pos rfl, hsc, hg, this.1]; exact ⟨rfl, this.2⟩
        · rw [if_neg hxc, hs x hxc, hg]; exact this
      · simp only [hg]; exact h.here
      · simp only [hg]; exact h.left
      · intro D1 d D2 hd
        have hd' : D ++ a.reading.toList = D1 ++ d :: D2 := hd
        rw [flatMap_congr (g := fun c => sentBy c es)]
        · exact h.more D1 d D2 hd
        · intro x hx
          exact hs x (hcr x (by rw [hd']; rcases List.mem_append.1 hx with h | h <;> simp_all))
      · intro x hx
        have hx' : Ev.connect x ∉ es := fun hm => hx (by simp [hm])
        have hxc : x ≠ c := by rintro rfl; exact hx' hc
        show (if x = c then a.inbox c ++ bs else a.inbox x) = _ ∧ a.hung x = _
        rw [if_neg hxc]; exact h.fresh x hx'
  | hangup c =>
    obtain ⟨hc, hh⟩ : Ev.connect c ∈ es ∧ Ev.hangup c ∉ es := hl
    have hs : ∀ d, sentBy d (es ++ [Ev.hangup c]) = sentBy d es := by intro d; rw [sentBy_append]; simp [sentBy]
    have hg : ∀ d, d ≠ c → gone d (es ++ [Ev.hangup c]) = gone d es := by
      intro d hd; rw [gone_append]; simp [gone, hd]
    have hgc : gone c (es ++ [Ev.hangup c]) = true := by rw [gone_append]; simp [gone]
    have hgm : ∀ d, gone d es = true → gone d (es ++ [Ev.hangup c]) = true := by
      intro d hd; rw [gone_append, hd]; rfl
    have hcl : clients (es ++ [Ev.hangup c]) = clients es := by rw [clients_append]; simp [clients]
    rw [acceptStep] at e
    by_cases hr : a.reading = some c
    · rw [if_pos hr] at e
      have hsp := h.split
      have hb := h.buffer
      have hm := h.more
      rw [hr] at hsp hb hm hnd
      simp only [Option.toList_some] at hsp hb hm hnd
      have hcb : ∀ x ∈ a.backlog, x ≠ c := by
        rintro x hx rfl
        rw [List.append_assoc, List.nodup_append] at hnd
        exact (List.nodup_cons.1 hnd.2.1).1 hx
      refine acceptAll_waits ho hst hne (D := D ++ [c]) (cs := a.backlog) ?_ e
      refine ⟨?_, h.request, h.served, ?_, ?_, by simp, ?_, ?_, ?_⟩
      · rw [hcl, hsp]; simp
      · simp only [hs]; simpa using hb
      · intro x hx
        show a.inbox x = _ ∧ a.hung x = _
        rw [hs, hg x (hcb x hx)]; exact h.inbox x hx
      · intro d hd
        rcases List.mem_append.1 hd with hd | hd
        · exact hgm d (h.left d hd)
        · rw [List.mem_singleton.1 hd]; exact hgc
      · intro D1 d D2 hd
        simp only [hs]
        exact hm D1 d D2 (by simpa using hd)
      · intro x hx
        exact h.fresh x fun hm => hx (by simp [hm])
    · rw [if_neg hr] at e
      cases e
      refine .inl ⟨D, ⟨?_, h.request, h.served, ?_, ?_, ?_, ?_, ?_, ?_⟩, hi⟩
      · rw [hcl]; exact h.split
      · simp only [hs]; exact h.buffer
      · intro x hx
        show a.inbox x = _ ∧ (if x = c then true else a.hung x) = _
        have := h.inbox x hx
        rw [hs]
        by_cases hxc : x = c
        · subst hxc
          rw [if_pos rfl, hgc]; exact ⟨this.1, rfl⟩
        · rw [if_neg hxc, hg x hxc]; exact this
      · intro x hx
        have hx' : a.reading = some x := hx
        have hxc : x ≠ c := by rintro rfl; exact hr hx'
        show (if x = c then true else a.hung x) = _ ∧ _
        rw [if_neg hxc, hg x hxc]; exact h.here x hx'
      · intro d hd; exact hgm d (h.left d hd)
      · simp only [hs]; exact h.more
      · intro x hx
        have hx' : Ev.connect x ∉ es := fun hm => hx (by simp [hm])
        have hxc : x ≠ c := by rintro rfl; exact hx' hc
        show a.inbox x = _ ∧ (if x = c then true else a.hung x) = _
        rw [if_neg hxc]; exact h.fresh x hx'

theorem acceptRun_waits {R} {parse : List Byte → Parsed R} {upgrade : R → Bool} (hst : StopsAtEnd parse) :
    ∀ {fs es : List Ev} {D : List Nat} {a a' : A R}, Orderly (es ++ fs) → NoError parse (es ++ fs) →
      Waits parse es D a.backlog a → (a.reading = none → a.backlog = []) → acceptRun parse upgrade fs a = .ok a' →
      (∃ D', Waits parse (es ++ fs) D' a'.backlog a' ∧ (a'.reading = none → a'.backlog = [])) ∨
        Answered parse upgrade (es ++ fs) a'
  | [], es, D, a, a', _, _, h, hi, e => by
    rw [acceptRun] at e; cases e
    exact .inl ⟨D, by simpa using h, hi⟩
  | ev :: fs, es, D, a, a', ho, hne, h, hi, e => by
    have e1 : es ++ ev :: fs = (es ++ [ev]) ++ fs := by simp
    rw [e1] at ho hne ⊢
    rw [acceptRun] at e
    cases hp : acceptStep parse upgrade a ev with
    | ub => rw [hp] at e; cases e
    | ok b =>
      rw [hp] at e
      rcases acceptStep_waits ho hst hne h hi hp with ⟨D', h', hi'⟩ | h'
      · exact acceptRun_waits hst ho hne h' hi' e
      · exact .inr (acceptRun_answered h' e)

/-- **C87, exactly**, in every history in which the parser meets no error: whatever the order in which clients come, send
and go, and in whatever pieces, the only client served is the one with the first request, where the clients are taken in
the order they connected, each one only when all before it have hung up, and where what those sent counts as the
beginning of its request. -/
theorem accept_exact {R} (parse : List Byte → Parsed R) (upgrade : R → Bool) (es : List Ev) (ho : Orderly es)
    (hst : StopsAtEnd parse) (hne : NoError parse es) (a : A R)
    (h : acceptRun parse upgrade es accept0 = .ok a) :
    a.served = (firstRequest parse (fun c => sentBy c es) (fun c => gone c es) [] (clients es)).toList.filter
      fun x => upgrade x.2 := by
  have h0 : Waits parse [] [] (accept0 : A R).backlog (accept0 : A R) :=
    ⟨rfl, rfl, rfl, rfl, by simp [accept0], by simp [accept0], by simp, by simp [accept0], by simp [accept0]⟩
  rcases acceptRun_waits hst (es := []) (D := []) ho hne h0 (fun _ => rfl) h with ⟨D, hw, hi⟩ | ⟨_, x, hx, hs⟩
  · rw [List.nil_append] at hw
    have hn : firstRequest parse (fun c => sentBy c es) (fun c => gone c es) [] (clients es) = none := by
      have hsp := hw.split
      have hm := hw.more
      rw [hsp, List.append_assoc, firstRequest_skip]
      · cases hr : a.reading with
        | none => rw [hi hr]; rfl
        | some c =>
          rw [hr] at hm
          have := hm D c [] (by simp)
          rw [List.flatMap_append] at this
          simp only [List.flatMap_cons, List.flatMap_nil, List.append_nil] at this
          rw [Option.toList_some, List.cons_append, firstRequest, List.nil_append, this]
          simp [(hw.here c hr).2]
      · exact hw.left
      · intro D1 d D2 hd
        rw [List.nil_append]
        exact hm D1 d (D2 ++ a.reading.toList) (by rw [hd]; simp)
    rw [hn, hw.served]; rfl
  · rw [List.nil_append] at hx
    rw [hx, hs]
    cases hu : upgrade x.2 <;> simp [hu]

/-- C87 fails: what a client sent before it hung up in the middle of its request counts as the beginning of the next
client's, which is not served although its own request is whole. -/
theorem accept_half_violated {R} (parse : List Byte → Parsed R) (upgrade : R → Bool) (h0 : parse [] = .more)
    (b1 b2 rest : List Byte) (r2 : R) (h1 : parse b1 = .more) (h2 : parse b2 = .done r2 []) (u2 : upgrade r2 = true)
    (h3 : parse (b1 ++ b2) = .bad rest) :
    let es := [Ev.connect 1, .data 1 b1, .hangup 1, .connect 2, .data 2 b2]
    (∃ a, acceptRun parse upgrade es (accept0 : A R) = .ok a ∧ a.served = []) ∧
      Deserves parse upgrade es 2 r2 := by
  constructor
  · simp [acceptRun, acceptStep, accept0, acceptAll, parseMore, h0, h1, h3, Cpp.bind]
  · refine ⟨by simp, ⟨[], ?_⟩, u2⟩
    simp [sentBy, h2]

/-! The first client goes without a word, the second sends its request in two pieces while a third has already sent
its own. -/
/-- A toy protocol without errors: a request ends with a newline. -/
def exLine : List Byte → Parsed Nat
  | [] => .more
  | b :: bs => if b = 10 then .done 0 bs else
    match exLine bs with
    | .done n rest => .done (n + 1) rest
    | x => x

theorem exLine_stops : StopsAtEnd exLine := by
  intro b
  induction b with
  | nil => intro r rest x h; cases h
  | cons c b ih =>
    intro r rest x h
    rw [List.cons_append]
    rw [exLine] at h ⊢
    split at h
    · rename_i hc
      rw [if_pos hc]; cases h; rfl
    · rename_i hc
      rw [if_neg hc]
      cases hb : exLine b with
      | done n rest' => rw [hb] at h; cases h; rw [ih _ _ _ hb]
      | more => rw [hb] at h; cases h
      | bad _ => rw [hb] at h; cases h

theorem exLine_fine (es : List Ev) : NoError exLine es := by
  intro p q hpq
  clear hpq q
  induction p with
  | nil => intro rest h; cases h
  | cons c b ih =>
    intro rest h
    rw [exLine] at h
    split at h
    · cases h
    · cases hb : exLine b with
      | done n rest' => rw [hb] at h; cases h
      | more => rw [hb] at h; cases h
      | bad x => exact ih x hb

def exSeq : List Ev := [.connect 1, .connect 2, .connect 3, .data 3 [7, 10], .data 2 [7, 8], .hangup 1, .data 2 [9, 10]]

example : Orderly exSeq := by
  intro xs e ys h
  have hk : ∀ k, k < exSeq.length → (match exSeq[k]? with
    | some (.connect c) => !(exSeq.take k).contains (Ev.connect c)
    | some (.data c _) => (exSeq.take k).contains (Ev.connect c) && !(exSeq.take k).contains (Ev.hangup c)
    | some (.hangup c) => (exSeq.take k).contains (Ev.connect c) && !(exSeq.take k).contains (Ev.hangup c)
    | none => true) = true := by decide
  have := hk xs.length (by rw [h]; simp)
  rw [h] at this
  cases e <;> simpa using this
example : firstRequest exLine (fun c => sentBy c exSeq) (fun c => gone c exSeq) [] (clients exSeq) = some (2, 3) := by
  decide
example : exParse [85] = .more ∧ exParse [85, 10] = .done 1 [] ∧ exParse ([85] ++ [85, 10]) = .bad [10] := by decide

end Nbdl.Server
