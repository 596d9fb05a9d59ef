import Verif.Optimist.Spec
import Verif.Delta.Props
/-! # C130, C131: clients that show changes at once -/
namespace Nbdl.Optimist
open Delta Delta.Spec Optimist.Spec
variable {n : Nat} {T : Fin n → Type} {U : Type} [DecidableEq U] [∀ i, DecidableEq (T i)]

/-- The client's own requests which have not come back. -/
def own (c : Client U T) : List (Wire U T) := c.inbox.filter (fun x => x.1 ∈ c.store.uids) ++ c.outbox

/-- The client's store knows its outstanding requests, and the server's entity is what the client gets from the
messages under way. -/
def CGood (v : Record T) (c : Client U T) : Prop :=
  ∃ a, ConvergeInv (own c) c.store a ∧ patches (c.inbox.map (·.2)) a = v

/-- The member is shown as the client's own outstanding requests leave it. -/
def Steady (m : Fin n) (c : Client U T) : Prop :=
  patches ((own c).map (·.2)) (patch c.store.pending c.store.value) m = c.store.value m

theorem own_uids {v : Record T} {c : Client U T} (h : CGood v c) : c.store.uids = (own c).map (·.1) := h.choose_spec.1.1

theorem own_nodup {v : Record T} {c : Client U T} (h : CGood v c) : ((own c).map (·.1)).Nodup := h.choose_spec.1.2.1

omit [∀ i, DecidableEq (T i)] in
theorem filter_congr' {l : List (Wire U T)} {us vs : List U} (h : ∀ x ∈ l, (x.1 ∈ us ↔ x.1 ∈ vs)) :
    l.filter (fun x => x.1 ∈ us) = l.filter (fun x => x.1 ∈ vs) := by
  apply List.filter_congr
  intro x hx
  simp only [h x hx]

/-! ## What happens to one client -/

theorem ask_own {v : Record T} {c : Client U T} (hc : CGood v c) (u : U) (d : Delta T)
    (hu : u ∉ c.store.uids) (hin : ∀ x ∈ c.inbox, x.1 ≠ u) : own (ask u d c) = own c ++ [(u, d)] := by
  have hnew : (ask u d c).store.uids = c.store.uids ++ [u] := by
    show insertUid u c.store.uids = _
    rw [insertUid, if_neg hu]
  have hf : c.inbox.filter (fun x => x.1 ∈ (ask u d c).store.uids) = c.inbox.filter (fun x => x.1 ∈ c.store.uids) := by
    apply filter_congr'
    intro x hx
    rw [hnew]
    simp [hin x hx]
  show c.inbox.filter (fun x => x.1 ∈ (ask u d c).store.uids) ++ (c.outbox ++ [(u, d)]) = _
  rw [hf, own, List.append_assoc]

theorem ask_good {v : Record T} {c : Client U T} (hc : CGood v c) (u : U) (d : Delta T)
    (hu : u ∉ c.store.uids) (hin : ∀ x ∈ c.inbox, x.1 ≠ u) : CGood v (ask u d c) := by
  have ho := ask_own hc u d hu hin
  have hus := own_uids hc
  obtain ⟨a, h1, h2⟩ := hc
  refine ⟨a, ?_, h2⟩
  rw [ho]
  refine converge_request u d ?_ h1
  intro x hx e
  apply hu
  rw [hus]
  exact List.mem_map.2 ⟨x, hx, e⟩

theorem ask_steady {v : Record T} {c : Client U T} (hc : CGood v c) (m : Fin n) (u : U) (d : Delta T)
    (hu : u ∉ c.store.uids) (hin : ∀ x ∈ c.inbox, x.1 ≠ u) (h : Steady m c) :
    Steady m (ask u d c) ∧ (ask u d c).store.value m = patch d c.store.value m := by
  have hval : (ask u d c).store.value = patch d c.store.value := apply_fst d c.store.value
  refine ⟨?_, by rw [hval]⟩
  rw [Steady, ask_own hc u d hu hin, hval, List.map_append, patches_append]
  show patch d _ m = patch d _ m
  unfold patch
  cases hd : d m with
  | some w => rfl
  | none =>
    show patches _ _ m = c.store.value m
    refine Eq.trans ?_ h
    apply patches_at
    show (applyDelta d c.store.pending m).getD (patch d c.store.value m) = _
    unfold applyDelta patch
    rw [hd]; rfl

omit [∀ i, DecidableEq (T i)] in
theorem tell_foreign (c : Client U T) (x : Wire U T) (hx : x.1 ∉ c.store.uids) :
    own (tell x c) = own c := by
  show (c.inbox ++ [x]).filter (fun y => y.1 ∈ c.store.uids) ++ c.outbox = _
  rw [List.filter_append, List.filter_cons_of_neg (by simpa using hx)]
  simp [own]

omit [∀ i, DecidableEq (T i)] in
theorem tell_own (c : Client U T) (x : Wire U T) (rest : List (Wire U T)) (ho : c.outbox = x :: rest)
    (hx : x.1 ∈ c.store.uids) : own (tell x { c with outbox := rest }) = own c := by
  show (c.inbox ++ [x]).filter (fun y => y.1 ∈ c.store.uids) ++ rest = _
  rw [List.filter_append, List.filter_cons_of_pos (by simpa using hx), own, ho]
  simp

theorem tell_good {v : Record T} {c c' : Client U T} (x : Wire U T) (hc : CGood v c) (hs : c'.store = c.store)
    (hi : c'.inbox = c.inbox) (ho : own (tell x c') = own c) : CGood (apply x.2 v).1 (tell x c') := by
  obtain ⟨a, h1, h2⟩ := hc
  refine ⟨a, ?_, ?_⟩
  · rw [ho]
    show ConvergeInv (own c) c'.store a
    rw [hs]; exact h1
  · show patches ((c'.inbox ++ [x]).map (·.2)) a = _
    rw [hi, List.map_append, patches_append, h2, apply_fst]; rfl

theorem hear_eq {c : Client U T} {u : U} {d : Delta T} {rest : List (Wire U T)} (h : c.inbox = (u, d) :: rest) :
    hear true c = ⟨(applyConfirmed c.store u d).1, rest, c.outbox⟩ := by
  rw [hear, h]; rfl

/-- A message that arrives is the answer to the oldest request of the client, or it is not about a request of the
client. -/
theorem hear_own {v : Record T} {c : Client U T} (hc : CGood v c) {u : U} {d : Delta T} {rest : List (Wire U T)}
    (h : c.inbox = (u, d) :: rest) :
    (u ∈ c.store.uids ∧ own c = (u, d) :: own (hear true c)) ∨ (u ∉ c.store.uids ∧ own (hear true c) = own c) := by
  have hus := own_uids hc
  have hnd := own_nodup hc
  rw [hear_eq h]
  by_cases hu : u ∈ c.store.uids
  · left
    refine ⟨hu, ?_⟩
    have hown : own c = (u, d) :: (rest.filter (fun x => x.1 ∈ c.store.uids) ++ c.outbox) := by
      rw [own, h, List.filter_cons_of_pos (by simpa using hu)]; rfl
    rw [hown]
    congr 1
    show _ = rest.filter (fun x => x.1 ∈ (applyConfirmed c.store u d).1.uids) ++ c.outbox
    congr 1
    apply filter_congr'
    intro x hx
    have hue : (applyConfirmed c.store u d).1.uids = c.store.uids.erase u := by
      rw [applyConfirmed, if_pos hu]; split <;> rfl
    rw [hue]
    constructor
    · intro hm
      rw [List.mem_erase_of_ne]
      · exact hm
      · intro e
        rw [hown, List.map_cons, List.nodup_cons] at hnd
        apply hnd.1
        refine List.mem_map.2 ⟨x, List.mem_append_left _ (List.mem_filter.2 ⟨hx, by simpa using hm⟩), e⟩
    · exact List.mem_of_mem_erase
  · right
    refine ⟨hu, ?_⟩
    rw [own, own, h, List.filter_cons_of_neg (by simpa using hu)]
    show rest.filter (fun x => x.1 ∈ (applyConfirmed c.store u d).1.uids) ++ c.outbox = _
    rw [applyConfirmed, if_neg hu]

theorem hear_good {v : Record T} {c : Client U T} (hc : CGood v c) : CGood v (hear true c) := by
  cases hin : c.inbox with
  | nil => rw [hear, hin]; exact hc
  | cons x rest =>
    obtain ⟨u, d⟩ := x
    have hus := own_uids hc
    have ho := hear_own hc hin
    obtain ⟨a, h1, h2⟩ := hc
    rw [hin] at h2
    refine ⟨patch d a, ?_, by rw [hear_eq hin]; exact h2⟩
    have hst : (hear true c).store = (applyConfirmed c.store u d).1 := by rw [hear_eq hin]
    rw [hst]
    rcases ho with ⟨hu, ho⟩ | ⟨hu, ho⟩
    · rw [ho] at h1
      exact converge_confirm (o₁ := []) u d d (covers_self d) h1
    · rw [ho]
      refine converge_foreign u d ?_ h1
      intro x hx e
      apply hu
      rw [hus]
      exact List.mem_map.2 ⟨x, hx, e⟩

theorem hear_steady {v : Record T} {c : Client U T} (hc : CGood v c) (m : Fin n) (h : Steady m c)
    (hf : ∀ x ∈ c.inbox, x.1 ∉ c.store.uids → x.2 m = none) :
    Steady m (hear true c) ∧ (hear true c).store.value m = c.store.value m := by
  cases hin : c.inbox with
  | nil => rw [hear, hin]; exact ⟨h, rfl⟩
  | cons x rest =>
    obtain ⟨u, d⟩ := x
    have hus := own_uids hc
    have hst : (hear true c).store = (applyConfirmed c.store u d).1 := by rw [hear_eq hin]
    have hga := own_uids (hear_good hc)
    rw [hst] at hga
    rcases hear_own hc hin with ⟨hu, ho⟩ | ⟨hu, ho⟩
    · have hp : patches ((own (hear true c)).map (·.2)) (patch (applyDelta d c.store.pending) c.store.value) m =
          c.store.value m := by
        refine Eq.trans ?_ h
        rw [ho]
        show _ = patches ((own (hear true c)).map (·.2)) (patch d (patch c.store.pending c.store.value)) m
        apply patches_at
        exact applyDelta_getD d c.store.pending c.store.value m
      rw [Steady, hst]
      rw [applyConfirmed, if_pos hu] at hga ⊢
      by_cases he : c.store.uids.erase u = []
      · rw [if_pos he] at hga ⊢
        have hn : own (hear true c) = [] := by
          rw [he] at hga
          exact List.map_eq_nil_iff.1 hga.symm
        rw [hn] at hp ⊢
        have hv : (apply (applyDelta d c.store.pending) c.store.value).1 m = c.store.value m := by
          rw [apply_fst]; exact hp
        exact ⟨rfl, hv⟩
      · rw [if_neg he]
        exact ⟨hp, rfl⟩
    · have hd : d m = none := hf (u, d) (by rw [hin]; exact .head _) hu
      have hv : (apply d c.store.value).1 m = c.store.value m := by
        rw [apply_fst]; unfold patch; rw [hd]; rfl
      rw [Steady, hst, ho, applyConfirmed, if_neg hu]
      refine ⟨?_, hv⟩
      show patches _ _ m = (apply d c.store.value).1 m
      rw [hv]
      refine Eq.trans ?_ h
      apply patches_at
      show (applyDelta d c.store.pending m).getD ((apply d c.store.value).1 m) = _
      rw [hv]
      unfold applyDelta
      rw [hd]; rfl

/-! ## The whole system -/

/-- The uids used so far are `used`; every client is good, and no two clients wait for the same uid. -/
structure Inv (used : List U) (s : Sys U T) : Prop where
  good : ∀ (i : Nat) (c : Client U T), s.clients[i]? = some c → CGood s.server c
  inboxUsed : ∀ (i : Nat) (c : Client U T), s.clients[i]? = some c → ∀ x ∈ c.inbox, x.1 ∈ used
  uidsUsed : ∀ (i : Nat) (c : Client U T), s.clients[i]? = some c → ∀ u ∈ c.store.uids, u ∈ used
  apart : ∀ (i j : Nat) (c e : Client U T), s.clients[i]? = some c → s.clients[j]? = some e → i ≠ j →
    ∀ u ∈ c.store.uids, u ∉ e.store.uids

theorem hear_uids {v : Record T} {c : Client U T} (hc : CGood v c) : ∀ u ∈ (hear true c).store.uids, u ∈ c.store.uids := by
  cases hin : c.inbox with
  | nil => rw [hear, hin]; exact fun _ h => h
  | cons x rest =>
    obtain ⟨u, d⟩ := x
    rw [hear_eq hin]
    show ∀ w ∈ (applyConfirmed c.store u d).1.uids, _
    rw [applyConfirmed]
    split
    · split <;> exact fun _ h => List.mem_of_mem_erase h
    · exact fun _ h => h

omit [DecidableEq U] [∀ i, DecidableEq (T i)] in
theorem get_modify {l : List (Client U T)} {i j : Nat} {f : Client U T → Client U T} {x : Client U T} :
    (l.modify i f)[j]? = some x ↔ ∃ c, l[j]? = some c ∧ x = if i = j then f c else c := by
  rw [List.getElem?_modify]
  cases l[j]? with
  | none => simp
  | some c => simp [eq_comm]

omit [DecidableEq U] [∀ i, DecidableEq (T i)] in
theorem get_map {l : List (Client U T)} {j : Nat} {f : Client U T → Client U T} {x : Client U T} :
    (l.map f)[j]? = some x ↔ ∃ c, l[j]? = some c ∧ x = f c := by
  rw [List.getElem?_map]
  cases l[j]? with
  | none => simp
  | some c => simp [eq_comm]

theorem join_inv {used : List U} {s : Sys U T} (h : Inv used s) (conf : Bool) : Inv used (step conf s .join) := by
  have key : ∀ (i : Nat) (c : Client U T), (step conf s .join).clients[i]? = some c →
      s.clients[i]? = some c ∨ (c = ⟨LocalVersion.init s.server, [], []⟩) := by
    intro i c hc
    have hc : (s.clients ++ [⟨LocalVersion.init s.server, [], []⟩])[i]? = some c := hc
    rw [List.getElem?_append] at hc
    split at hc
    · exact .inl hc
    · right
      rw [List.getElem?_singleton] at hc
      split at hc
      · exact (Option.some.inj hc).symm
      · cases hc
  refine ⟨?_, ?_, ?_, ?_⟩
  · intro i c hc
    rcases key i c hc with hc | rfl
    · exact h.good i c hc
    · exact ⟨s.server, ⟨rfl, by simp [own], fun _ _ => rfl, fun _ => rfl⟩, rfl⟩
  · intro i c hc
    rcases key i c hc with hc | rfl
    · exact h.inboxUsed i c hc
    · simp
  · intro i c hc
    rcases key i c hc with hc | rfl
    · exact h.uidsUsed i c hc
    · simp [LocalVersion.init]
  · intro i j c e hc he hij
    rcases key i c hc with hc | rfl
    · rcases key j e he with he | rfl
      · exact h.apart i j c e hc he hij
      · simp [LocalVersion.init]
    · simp [LocalVersion.init]

theorem request_inv {used : List U} {s : Sys U T} (h : Inv used s) (i : Nat) (u : U) (d : Delta T) (hu : u ∉ used)
    (conf : Bool) : Inv (u :: used) (step conf s (.request i u d)) := by
  have hun : ∀ (c : Client U T), u ∉ c.store.uids → (ask u d c).store.uids = c.store.uids ++ [u] := by
    intro c hc
    show insertUid u c.store.uids = _
    rw [insertUid, if_neg hc]
  have hnot : ∀ (j : Nat) (c : Client U T), s.clients[j]? = some c → u ∉ c.store.uids :=
    fun j c hc hm => hu (h.uidsUsed j c hc u hm)
  refine ⟨?_, ?_, ?_, ?_⟩
  · intro j c hc
    replace hc := get_modify.1 hc
    obtain ⟨c, hc, rfl⟩ := hc
    have hg := h.good j c hc
    split
    · exact ask_good hg u d (hnot j c hc) (fun x hx e => hu (e ▸ h.inboxUsed j c hc x hx))
    · exact hg
  · intro j c hc x hx
    replace hc := get_modify.1 hc
    obtain ⟨c, hc, rfl⟩ := hc
    have : x ∈ c.inbox := by split at hx <;> exact hx
    exact List.mem_cons_of_mem _ (h.inboxUsed j c hc x this)
  · intro j c hc w hw
    replace hc := get_modify.1 hc
    obtain ⟨c, hc, rfl⟩ := hc
    split at hw
    · rw [hun c (hnot j c hc)] at hw
      rcases List.mem_append.1 hw with hw | hw
      · exact List.mem_cons_of_mem _ (h.uidsUsed j c hc w hw)
      · rw [List.mem_singleton] at hw; subst hw; exact .head _
    · exact List.mem_cons_of_mem _ (h.uidsUsed j c hc w hw)
  · intro j k c e hc he hjk w hw
    replace hc := get_modify.1 hc
    obtain ⟨c, hc, rfl⟩ := hc
    replace he := get_modify.1 he
    obtain ⟨e, he, rfl⟩ := he
    have ha := h.apart j k c e hc he hjk
    split at hw <;> split
    · omega
    · rw [hun c (hnot j c hc)] at hw
      rcases List.mem_append.1 hw with hw | hw
      · exact ha w hw
      · rw [List.mem_singleton] at hw; subst hw; exact hnot k e he
    · rw [hun e (hnot k e he), List.mem_append, List.mem_singleton]
      rintro (hm | rfl)
      · exact ha w hw hm
      · exact hnot j c hc hw
    · exact ha w hw

theorem deliver_inv {used : List U} {s : Sys U T} (h : Inv used s) (i : Nat) : Inv used (step true s (.deliver i)) := by
  have hsub : ∀ (j : Nat) (c : Client U T), s.clients[j]? = some c →
      ∀ u ∈ (if i = j then hear true c else c).store.uids, u ∈ c.store.uids := by
    intro j c hc u hu
    split at hu
    · exact hear_uids (h.good j c hc) u hu
    · exact hu
  refine ⟨?_, ?_, ?_, ?_⟩
  · intro j c hc
    replace hc := get_modify.1 hc
    obtain ⟨c, hc, rfl⟩ := hc
    split
    · exact hear_good (h.good j c hc)
    · exact h.good j c hc
  · intro j c hc x hx
    replace hc := get_modify.1 hc
    obtain ⟨c, hc, rfl⟩ := hc
    apply h.inboxUsed j c hc x
    split at hx
    · rw [hear] at hx
      split at hx
      · exact hx
      · rename_i heq
        rw [heq]; exact List.mem_cons_of_mem _ hx
    · exact hx
  · intro j c hc w hw
    replace hc := get_modify.1 hc
    obtain ⟨c, hc, rfl⟩ := hc
    exact h.uidsUsed j c hc w (hsub j c hc w hw)
  · intro j k c e hc he hjk w hw hw'
    replace hc := get_modify.1 hc
    obtain ⟨c, hc, rfl⟩ := hc
    replace he := get_modify.1 he
    obtain ⟨e, he, rfl⟩ := he
    exact h.apart j k c e hc he hjk w (hsub j c hc w hw) (hsub k e he w hw')

theorem change_inv {used : List U} {s : Sys U T} (h : Inv used s) (u : U) (d : Delta T) (hu : u ∉ used) (conf : Bool) :
    Inv (u :: used) (step conf s (.change u d)) := by
  refine ⟨?_, ?_, ?_, ?_⟩
  · intro j c hc
    replace hc := get_map.1 hc
    obtain ⟨c, hc, rfl⟩ := hc
    exact tell_good (u, d) (h.good j c hc) rfl rfl (tell_foreign c _ fun hm => hu (h.uidsUsed j c hc u hm))
  · intro j c hc x hx
    replace hc := get_map.1 hc
    obtain ⟨c, hc, rfl⟩ := hc
    rcases List.mem_append.1 hx with hx | hx
    · exact List.mem_cons_of_mem _ (h.inboxUsed j c hc x hx)
    · rw [List.mem_singleton] at hx; subst hx; exact .head _
  · intro j c hc w hw
    replace hc := get_map.1 hc
    obtain ⟨c, hc, rfl⟩ := hc
    exact List.mem_cons_of_mem _ (h.uidsUsed j c hc w hw)
  · intro j k c e hc he hjk
    replace hc := get_map.1 hc
    obtain ⟨c, hc, rfl⟩ := hc
    replace he := get_map.1 he
    obtain ⟨e, he, rfl⟩ := he
    exact h.apart j k c e hc he hjk

/-- What serving does. -/
theorem serve_eq (conf : Bool) (s : Sys U T) (i : Nat) :
    step conf s (.serve i) = s ∨ ∃ c x rest, s.clients[i]? = some c ∧ c.outbox = x :: rest ∧
      (step conf s (.serve i)).server = (apply x.2 s.server).1 ∧
      ∀ (j : Nat) (e : Client U T), (step conf s (.serve i)).clients[j]? = some e ↔ ∃ e', s.clients[j]? = some e' ∧
        e = tell x (if i = j then { e' with outbox := rest } else e') := by
  rw [step]
  split
  · rename_i st ib x rest heq
    right
    refine ⟨_, x, rest, heq, rfl, rfl, fun j e => ?_⟩
    show ((s.clients.modify i _).map (tell x))[j]? = some e ↔ _
    rw [get_map]
    constructor
    · rintro ⟨c, hc, rfl⟩
      obtain ⟨e', he', rfl⟩ := get_modify.1 hc
      exact ⟨e', he', rfl⟩
    · rintro ⟨e', he', rfl⟩
      exact ⟨_, get_modify.2 ⟨e', he', rfl⟩, rfl⟩
  · exact .inl rfl

theorem serve_inv {used : List U} {s : Sys U T} (h : Inv used s) (i : Nat) (conf : Bool) :
    Inv used (step conf s (.serve i)) := by
  rcases serve_eq conf s i with e | ⟨c, x, rest, h1, h2, h3, h4⟩
  · rw [e]; exact h
  · have hx : x.1 ∈ c.store.uids := by
      rw [own_uids (h.good i c h1), own, h2]
      simp
    refine ⟨?_, ?_, ?_, ?_⟩
    · intro j e he
      replace he := (h4 j e).1 he
      obtain ⟨e, he, rfl⟩ := he
      rw [h3]
      by_cases hij : i = j
      · subst hij
        rw [h1] at he
        cases he
        rw [if_pos rfl]
        exact tell_good x (h.good i c h1) rfl rfl (tell_own c x rest h2 hx)
      · rw [if_neg hij]
        exact tell_good x (h.good j e he) rfl rfl (tell_foreign e x (h.apart i j c e h1 he hij _ hx))
    · intro j e he y hy
      replace he := (h4 j e).1 he
      obtain ⟨e, he, rfl⟩ := he
      rcases List.mem_append.1 hy with hy | hy
      · exact h.inboxUsed j e he y (by split at hy <;> exact hy)
      · rw [List.mem_singleton] at hy; subst hy
        exact h.uidsUsed i c h1 _ hx
    · intro j e he w hw
      replace he := (h4 j e).1 he
      obtain ⟨e, he, rfl⟩ := he
      exact h.uidsUsed j e he w (by change w ∈ (if i = j then _ else _ : Client U T).store.uids at hw; split at hw <;> exact hw)
    · intro j k a b ha hb hjk w hw hw'
      replace ha := (h4 j a).1 ha
      obtain ⟨a, ha, rfl⟩ := ha
      replace hb := (h4 k b).1 hb
      obtain ⟨b, hb, rfl⟩ := hb
      refine h.apart j k a b ha hb hjk w ?_ ?_
      · change w ∈ (if i = j then _ else _ : Client U T).store.uids at hw; split at hw <;> exact hw
      · change w ∈ (if i = k then _ else _ : Client U T).store.uids at hw'; split at hw' <;> exact hw'

theorem run_inv (h : List (Step U T)) : ∀ {used : List U} {s : Sys U T}, Inv used s → (uids h).Nodup →
    (∀ u ∈ uids h, u ∉ used) → Inv ((uids h).reverse ++ used) (run true s h) := by
  induction h with
  | nil => intro used s hi _ _; exact hi
  | cons x h ih =>
    intro used s hi hn hu
    show Inv _ (run true (step true s x) h)
    cases x with
    | join => exact ih (join_inv hi true) hn hu
    | serve i => exact ih (serve_inv hi i true) hn hu
    | deliver i => exact ih (deliver_inv hi i) hn hu
    | request i u d =>
      rw [uids, List.nodup_cons] at hn
      have := ih (request_inv hi i u d (hu u (.head _)) true) hn.2 (by
        intro w hw hm
        rcases List.mem_cons.1 hm with rfl | hm
        · exact hn.1 hw
        · exact hu w (List.mem_cons_of_mem _ hw) hm)
      simpa [uids] using this
    | change u d =>
      rw [uids, List.nodup_cons] at hn
      have := ih (change_inv hi u d (hu u (.head _)) true) hn.2 (by
        intro w hw hm
        rcases List.mem_cons.1 hm with rfl | hm
        · exact hn.1 hw
        · exact hu w (List.mem_cons_of_mem _ hw) hm)
      simpa [uids] using this

theorem start_inv (v : Record T) : Inv [] (start v : Sys U T) :=
  ⟨fun i c h => by simp [start] at h, fun i c h => by simp [start] at h, fun i c h => by simp [start] at h,
    fun i j c e h => by simp [start] at h⟩

/-- C130: over every history, a client whose messages have all been read shows what the server has, and waits for
nothing. -/
theorem idle_agrees (v : Record T) (h : List (Step U T)) (hn : (uids h).Nodup) (i : Nat) (c : Client U T)
    (hc : (run true (start v) h).clients[i]? = some c) (hi : Idle c) :
    c.store.value = (run true (start v) h).server ∧ c.store.uids = [] := by
  have hinv := run_inv h (start_inv v) hn (by simp)
  obtain ⟨a, h1, h2⟩ := hinv.good i c hc
  have ho : own c = [] := by rw [own, hi.1, hi.2]; rfl
  rw [ho] at h1
  rw [hi.1] at h2
  exact ⟨(h1.2.2.2 rfl).trans h2, h1.1⟩

/-- C130: what the server has are the changes it carried out, in order. -/
theorem server_carries (conf : Bool) (h : List (Step U T)) : ∀ s : Sys U T,
    (run conf s h).server = patches (carriedOut conf s h) s.server := by
  induction h with
  | nil => intro s; rfl
  | cons x h ih =>
    intro s
    have hone : (step conf s x).server = patches (carriedOut conf s [x]) s.server := by
      cases x with
      | join => rfl
      | request => rfl
      | deliver => rfl
      | change u d => exact apply_fst d s.server
      | serve i =>
        show (step conf s (.serve i)).server =
          patches ((((s.clients[i]?.map (·.outbox)).getD []).take 1).map (·.2) ++ []) s.server
        rw [step]
        split
        · rename_i x rest heq
          rw [heq]
          exact apply_fst x.2 s.server
        · rename_i hne
          cases hc : s.clients[i]? with
          | none => rfl
          | some c =>
            obtain ⟨a, b, o⟩ := c
            cases o with
            | nil => rfl
            | cons x rest => exact absurd hc (hne _ _ _ _)
    have happ : carriedOut conf s (x :: h) = carriedOut conf s [x] ++ carriedOut conf (step conf s x) h := by
      cases x <;> simp [carriedOut]
    show (run conf (step conf s x) h).server = _
    rw [ih, happ, patches_append, hone]

/-! ## C131 -/

/-- Only the client writes the member: nothing under way from others does. -/
structure Mine (i : Nat) (m : Fin n) (c : Client U T) (s : Sys U T) : Prop where
  here : s.clients[i]? = some c
  steady : Steady m c
  foreign : ∀ x ∈ c.inbox, x.1 ∉ c.store.uids → x.2 m = none
  others : ∀ (j : Nat) (e : Client U T), j ≠ i → s.clients[j]? = some e → ∀ x ∈ e.outbox, x.2 m = none

theorem steady_step {used : List U} {s : Sys U T} (h : Inv used s) {i : Nat} {m : Fin n} {c : Client U T}
    (hm : Mine i m c s) (x : Step U T) (hx : OnlyBy i m [x]) (hu : ∀ u ∈ uids [x], u ∉ used) :
    ∃ c', Mine i m c' (step true s x) ∧ c'.store.value m = patches (asked i [x]) c.store.value m := by
  obtain ⟨h1, h2, h3, h4⟩ := hm
  have hg := h.good i c h1
  cases x with
  | join =>
    refine ⟨c, ⟨?_, h2, h3, ?_⟩, rfl⟩
    · show (s.clients ++ _)[i]? = some c
      rw [List.getElem?_append_left (List.getElem?_eq_some_iff.1 h1).1]; exact h1
    · intro j e hj he
      have he : (s.clients ++ [⟨LocalVersion.init s.server, [], []⟩])[j]? = some e := he
      rw [List.getElem?_append] at he
      split at he
      · exact h4 j e hj he
      · rw [List.getElem?_singleton] at he
        split at he
        · cases he; simp
        · cases he
  | request j u d =>
    have hun : u ∉ used := hu u (.head _)
    by_cases hj : j = i
    · subst hj
      have hnu : u ∉ c.store.uids := fun hm => hun (h.uidsUsed j c h1 u hm)
      have hin : ∀ x ∈ c.inbox, x.1 ≠ u := fun x hx e => hun (e ▸ h.inboxUsed j c h1 x hx)
      obtain ⟨k1, k2⟩ := ask_steady hg m u d hnu hin h2
      refine ⟨ask u d c, ⟨get_modify.2 ⟨c, h1, by rw [if_pos rfl]⟩, k1, ?_, ?_⟩, ?_⟩
      · intro x hx hxu
        apply h3 x hx
        intro hm
        apply hxu
        show x.1 ∈ insertUid u c.store.uids
        rw [insertUid, if_neg hnu]
        exact List.mem_append_left _ hm
      · intro k e hk he x hx
        obtain ⟨e', he', rfl⟩ := get_modify.1 he
        rw [if_neg (fun h => hk h.symm)] at hx
        exact h4 k e' hk he' x hx
      · rw [k2]; simp [asked, patches]
    · refine ⟨c, ⟨get_modify.2 ⟨c, h1, by rw [if_neg hj]⟩, h2, h3, ?_⟩, by simp [asked, hj, patches]⟩
      intro k e hk he x hx'
      obtain ⟨e', he', rfl⟩ := get_modify.1 he
      split at hx'
      · rcases List.mem_append.1 hx' with hx' | hx'
        · exact h4 k e' hk he' x hx'
        · rw [List.mem_singleton] at hx'; subst hx'; exact hx.1 hj
      · exact h4 k e' hk he' x hx'
  | change u d =>
    refine ⟨tell (u, d) c, ⟨get_map.2 ⟨c, h1, rfl⟩, ?_, ?_, ?_⟩, rfl⟩
    · rw [Steady, tell_foreign c (u, d) (fun hm => hu u (.head _) (h.uidsUsed i c h1 u hm))]; exact h2
    · intro x hx' hxu
      rcases List.mem_append.1 hx' with hx' | hx'
      · exact h3 x hx' hxu
      · rw [List.mem_singleton] at hx'; subst hx'; exact hx.1
    · intro k e hk he x hx'
      obtain ⟨e', he', rfl⟩ := get_map.1 he
      exact h4 k e' hk he' x hx'
  | deliver j =>
    by_cases hj : j = i
    · subst hj
      obtain ⟨k1, k2⟩ := hear_steady hg m h2 h3
      refine ⟨hear true c, ⟨get_modify.2 ⟨c, h1, by rw [if_pos rfl]⟩, k1, ?_, ?_⟩, k2⟩
      · cases hin : c.inbox with
        | nil => rw [hear, hin]; dsimp only; rw [hin]; simp
        | cons y rest =>
          obtain ⟨u, d⟩ := y
          intro x hx hxu
          rcases hear_own hg hin with ⟨hu', ho⟩ | ⟨hu', ho⟩
          · have hxr : x ∈ rest := by rw [hear_eq hin] at hx; exact hx
            by_cases hxc : x.1 ∈ c.store.uids
            · exfalso
              apply hxu
              rw [own_uids (hear_good hg)]
              rw [own, hin, List.filter_cons_of_pos (by simpa using hu')] at ho
              have ho' := (List.cons.inj ho).2
              rw [← ho']
              exact List.mem_map.2 ⟨x, List.mem_append_left _ (List.mem_filter.2 ⟨hxr, by simpa using hxc⟩), rfl⟩
            · exact h3 x (by rw [hin]; exact List.mem_cons_of_mem _ hxr) hxc
          · have hxr : x ∈ rest := by rw [hear_eq hin] at hx; exact hx
            apply h3 x (by rw [hin]; exact List.mem_cons_of_mem _ hxr)
            intro hm
            apply hxu
            rw [own_uids (hear_good hg), ho, ← own_uids hg]; exact hm
      · intro k e hk he x hx
        obtain ⟨e', he', rfl⟩ := get_modify.1 he
        rw [if_neg (fun h => hk h.symm)] at hx
        exact h4 k e' hk he' x hx
    · refine ⟨c, ⟨get_modify.2 ⟨c, h1, by rw [if_neg hj]⟩, h2, h3, ?_⟩, rfl⟩
      intro k e hk he x hx
      obtain ⟨e', he', rfl⟩ := get_modify.1 he
      apply h4 k e' hk he' x
      split at hx
      · rw [hear] at hx; split at hx <;> exact hx
      · exact hx
  | serve j =>
    rcases serve_eq true s j with e | ⟨a, x, rest, q1, q2, q3, q4⟩
    · rw [e]; exact ⟨c, ⟨h1, h2, h3, h4⟩, rfl⟩
    · have hxa : x.1 ∈ a.store.uids := by
        rw [own_uids (h.good j a q1), own, q2]
        simp
      have hoth : ∀ (k : Nat) (e : Client U T), k ≠ i → (step true s (.serve j)).clients[k]? = some e →
          ∀ y ∈ e.outbox, y.2 m = none := by
        intro k e hk he y hy
        obtain ⟨e', he', rfl⟩ := (q4 k e).1 he
        apply h4 k e' hk he' y
        by_cases hjk : j = k
        · subst hjk
          rw [q1] at he'; cases he'
          rw [if_pos rfl] at hy
          rw [q2]; exact List.mem_cons_of_mem _ hy
        · rw [if_neg hjk] at hy; exact hy
      by_cases hj : j = i
      · subst hj
        rw [h1] at q1; cases q1
        refine ⟨tell x { c with outbox := rest }, ⟨(q4 j _).2 ⟨c, h1, by rw [if_pos rfl]⟩, ?_, ?_, hoth⟩, rfl⟩
        · rw [Steady, tell_own c x rest q2 hxa]; exact h2
        · intro y hy hyu
          rcases List.mem_append.1 hy with hy | hy
          · exact h3 y hy hyu
          · rw [List.mem_singleton] at hy; subst hy; exact absurd hxa hyu
      · have hxi : x.1 ∉ c.store.uids := h.apart j i a c q1 h1 hj _ hxa
        refine ⟨tell x c, ⟨(q4 i _).2 ⟨c, h1, by rw [if_neg hj]⟩, ?_, ?_, hoth⟩, rfl⟩
        · rw [Steady, tell_foreign c x hxi]; exact h2
        · intro y hy hyu
          rcases List.mem_append.1 hy with hy | hy
          · exact h3 y hy hyu
          · rw [List.mem_singleton] at hy; subst hy
            exact h4 j a hj q1 _ (by rw [q2]; exact .head _)

theorem asked_cons (i : Nat) (x : Step U T) (h : List (Step U T)) : asked i (x :: h) = asked i [x] ++ asked i h := by
  cases x with
  | request j u d => by_cases hj : j = i <;> simp [asked, hj]
  | _ => rfl

theorem onlyBy_cons (i : Nat) (m : Fin n) (x : Step U T) (h : List (Step U T)) :
    OnlyBy i m (x :: h) → OnlyBy i m [x] ∧ OnlyBy i m h := by
  cases x with
  | request j u d => exact fun h => ⟨⟨h.1, trivial⟩, h.2⟩
  | change u d => exact fun h => ⟨⟨h.1, trivial⟩, h.2⟩
  | _ => exact fun h => ⟨trivial, h⟩

theorem uids_cons (x : Step U T) (h : List (Step U T)) : uids (x :: h) = uids [x] ++ uids h := by
  cases x <;> rfl

theorem steady_run (h : List (Step U T)) : ∀ {used : List U} {s : Sys U T} {i : Nat} {m : Fin n} {c : Client U T},
    Inv used s → Mine i m c s → OnlyBy i m h → (uids h).Nodup → (∀ u ∈ uids h, u ∉ used) →
    ∃ c', (run true s h).clients[i]? = some c' ∧ c'.store.value m = patches (asked i h) c.store.value m := by
  induction h with
  | nil => intro used s i m c _ hm _ _ _; exact ⟨c, hm.here, rfl⟩
  | cons x h ih =>
    intro used s i m c hi hm ho hn hu
    obtain ⟨o1, o2⟩ := onlyBy_cons i m x h ho
    rw [uids_cons, List.nodup_append] at hn
    rw [uids_cons] at hu
    have hu1 : ∀ u ∈ uids [x], u ∉ used := fun u hm => hu u (List.mem_append_left _ hm)
    obtain ⟨c1, k1, k2⟩ := steady_step hi hm x o1 hu1
    obtain ⟨c2, k3, k4⟩ := ih (run_inv [x] hi hn.1 hu1) k1 o2 hn.2.1 (by
      intro u hm hmem
      rcases List.mem_append.1 hmem with hmem | hmem
      · exact hn.2.2 u (List.mem_reverse.1 hmem) u hm rfl
      · exact hu u (List.mem_append_right _ hm) hmem)
    refine ⟨c2, k3, ?_⟩
    rw [k4, asked_cons, patches_append]
    exact patches_at _ _ _ _ k2

theorem run_append (conf : Bool) (s : Sys U T) (a b : List (Step U T)) : run conf s (a ++ b) = run conf (run conf s a) b := by
  simp [run]

theorem uids_append (a b : List (Step U T)) : uids (a ++ b) = uids a ++ uids b := by
  induction a with
  | nil => rfl
  | cons x a ih => rw [List.cons_append, uids_cons, ih, ← List.append_assoc, ← uids_cons]

/-- C131: from the time a client joins, as long as nobody else changes a member, the client shows for this member
always what its program asked for last, however the requests of all members, answers and changes by others
interleave. -/
theorem own_member_partial (v : Record T) (pre post : List (Step U T)) (hn : (uids (pre ++ .join :: post)).Nodup)
    (m : Fin n)
    (hpre : ∀ e ∈ (run true (start v) pre : Sys U T).clients, ∀ x ∈ e.outbox, x.2 m = none)
    (hpost : OnlyBy (run true (start v) pre : Sys U T).clients.length m post) :
    ∃ c, (run true (start v) (pre ++ .join :: post)).clients[(run true (start v) pre : Sys U T).clients.length]? = some c ∧
      c.store.value m =
        patches (asked (run true (start v) pre : Sys U T).clients.length post) (run true (start v) pre : Sys U T).server m := by
  rw [uids_append] at hn
  have hn' := List.nodup_append.1 hn
  have hi := join_inv (run_inv pre (start_inv v) hn'.1 (by simp)) true
  rw [run_append]
  show ∃ c, (run true (step true (run true (start v) pre) .join) post).clients[_]? = some c ∧ _
  refine steady_run post (c := ⟨LocalVersion.init (run true (start v) pre).server, [], []⟩) hi ⟨?_, ?_, ?_, ?_⟩ hpost hn'.2.1 ?_
  · show (_ ++ [_])[_]? = _
    rw [List.getElem?_append_right (Nat.le_refl _), Nat.sub_self]; rfl
  · rfl
  · simp
  · intro j e hj he
    have he : ((run true (start v) pre).clients ++ [⟨LocalVersion.init (run true (start v) pre).server, [], []⟩])[j]? =
      some e := he
    rw [List.getElem?_append] at he
    split at he
    · exact hpre e (List.mem_iff_getElem?.2 ⟨j, he⟩)
    · rename_i hlt
      rw [List.getElem?_singleton, if_neg (by omega)] at he
      cases he
  · intro u hu hmem
    rw [List.append_nil] at hmem
    exact hn'.2.2 u (List.mem_reverse.1 hmem) u hu rfl

/-! ## Examples -/

/-- Two clients; the second one joins later. Both change the number, and the requests cross. -/
def sampleRun : List (Step Nat Sample) :=
  [.join, .request 0 1 (sampleDelta (some 1) none none), .join, .request 1 2 (sampleDelta (some 2) (some true) none),
   .request 0 3 (sampleDelta none none (some "c")), .serve 1, .serve 0, .change 4 (sampleDelta none (some false) none),
   .deliver 0, .serve 0, .deliver 0, .deliver 1, .deliver 0, .deliver 0, .deliver 1, .deliver 1, .deliver 1]

example : (uids sampleRun).Nodup := by decide
example : (run true (start (sample 0 false "a")) sampleRun).clients.map (fun c => (c.inbox.length, c.outbox.length)) =
    [(0, 0), (0, 0)] := by decide +kernel
example : ∀ c ∈ (run true (start (sample 0 false "a")) sampleRun).clients, ∀ i, c.store.value i = sample 1 false "c" i := by
  decide +kernel

/-- Another client only changes the text. -/
def sampleOwn : List (Step Nat Sample) :=
  [.request 1 1 (sampleDelta (some 1) none none), .request 0 2 (sampleDelta none none (some "b")),
   .request 1 3 (sampleDelta (some 2) none (some "c")), .serve 0, .serve 1, .deliver 1, .deliver 1]
example : (uids ([.join] ++ .join :: sampleOwn)).Nodup := by decide
example : OnlyBy (run true (start (sample 0 false "a")) [.join] : Sys Nat Sample).clients.length 0 sampleOwn := by
  simp [OnlyBy, sampleOwn, run, step, start, sampleDelta]
example : ((run true (start (sample 0 false "a")) ([.join] ++ .join :: sampleOwn)).clients.map fun c => c.store.value 0) =
    [(0 : Nat), 2] := by decide +kernel

/-! ## What is violated -/

/-- VIOLATION of C131: a change by another client to the same member shows in between, although the client's own
change comes after it: the client shows 1, then 2, then 1. -/
theorem foreign_change_shows_violated :
    let h : List (Step Nat Sample) := [.join, .join, .request 0 1 (sampleDelta (some 1) none none),
      .request 1 2 (sampleDelta (some 2) none none), .serve 1, .serve 0, .deliver 0, .deliver 0]
    (List.range 3).map (fun k => (run true (start (sample 0 false "a")) (h.take (6 + k))).clients[0]?.map
      fun c => c.store.value 0) = [some (1 : Nat), some 2, some 1] ∧
    (run true (start (sample 0 false "a")) h).server 0 = (1 : Nat) := by
  decide +kernel

/-- VIOLATION of C131: if the server does not mark its messages as confirmed, which is what `echo_producer` does, an
answer undoes what the client asked for since: the client shows 2, then 1, then 2. -/
theorem unconfirmed_flickers_violated :
    let h : List (Step Nat Sample) := [.join, .request 0 1 (sampleDelta (some 1) none none),
      .request 0 2 (sampleDelta (some 2) none none), .serve 0, .serve 0, .deliver 0, .deliver 0]
    (List.range 3).map (fun k => (run false (start (sample 0 false "a")) (h.take (5 + k))).clients[0]?.map
      fun c => c.store.value 0) = [some (2 : Nat), some 1, some 2] := by
  decide +kernel

/-- What a client shows, without confirmations: what it got from the server, except for members that are written by
something under way. -/
def UGood (v : Record T) (c : Client U T) : Prop :=
  ∃ a, patches (c.inbox.map (·.2)) a = v ∧
    ∀ m, (∀ x ∈ c.inbox ++ c.outbox, x.2 m = none) → c.store.value m = a m

theorem unconfirmed_step (s : Sys U T) (x : Step U T)
    (h : ∀ (i : Nat) (c : Client U T), s.clients[i]? = some c → UGood s.server c) :
    ∀ (i : Nat) (c : Client U T), (step false s x).clients[i]? = some c → UGood (step false s x).server c := by
  have htell : ∀ (c e : Client U T) (y : Wire U T), UGood s.server c → e.store = c.store → e.inbox = c.inbox →
      (∀ z ∈ c.outbox, z ∈ y :: e.outbox) → UGood (apply y.2 s.server).1 (tell y e) := by
    rintro c e y ⟨a, h1, h2⟩ hs hi ho
    refine ⟨a, ?_, ?_⟩
    · show patches ((e.inbox ++ [y]).map (·.2)) a = _
      rw [hi, List.map_append, patches_append, h1, apply_fst]; rfl
    · intro m hm
      show e.store.value m = a m
      rw [hs]
      apply h2 m
      intro z hz
      apply hm z
      show z ∈ (e.inbox ++ [y]) ++ e.outbox
      rcases List.mem_append.1 hz with hz | hz
      · rw [hi]; simp [hz]
      · rcases List.mem_cons.1 (ho z hz) with rfl | hz
        · simp
        · simp [hz]
  intro i c hc
  cases x with
  | join =>
    have hc : (s.clients ++ [⟨LocalVersion.init s.server, [], []⟩])[i]? = some c := hc
    rw [List.getElem?_append] at hc
    split at hc
    · exact h i c hc
    · rw [List.getElem?_singleton] at hc
      split at hc
      · cases hc
        exact ⟨s.server, rfl, fun _ _ => rfl⟩
      · cases hc
  | request j u d =>
    obtain ⟨e, he, rfl⟩ := get_modify.1 hc
    obtain ⟨a, h1, h2⟩ := h i e he
    split
    · refine ⟨a, h1, fun m hm => ?_⟩
      have hd : d m = none := hm (u, d) (by show _ ∈ e.inbox ++ (e.outbox ++ [(u, d)]); simp)
      show (apply d e.store.value).1 m = _
      rw [apply_fst, patch, hd]
      apply h2 m
      intro z hz
      apply hm z
      show _ ∈ e.inbox ++ (e.outbox ++ [(u, d)])
      rw [← List.append_assoc]
      exact List.mem_append_left _ hz
    · exact ⟨a, h1, h2⟩
  | change u d =>
    obtain ⟨e, he, rfl⟩ := get_map.1 hc
    exact htell e e (u, d) (h i e he) rfl rfl (fun z hz => List.mem_cons_of_mem _ hz)
  | deliver j =>
    obtain ⟨e, he, rfl⟩ := get_modify.1 hc
    have hg := h i e he
    split
    · rw [hear]
      split
      · exact hg
      · rename_i u d rest hin
        obtain ⟨a, h1, h2⟩ := hg
        rw [hin] at h1
        refine ⟨patch d a, h1, fun m hm => ?_⟩
        show (apply d e.store.value).1 m = _
        rw [apply_fst]
        unfold patch
        cases hd : d m with
        | some w => rfl
        | none =>
          show e.store.value m = a m
          apply h2 m
          intro z hz
          rw [hin] at hz
          rcases List.mem_cons.1 hz with rfl | hz
          · exact hd
          · exact hm z hz
    · exact hg
  | serve j =>
    rcases serve_eq false s j with e | ⟨b, x, rest, q1, q2, q3, q4⟩
    · rw [e] at hc ⊢; exact h i c hc
    · rw [q3]
      obtain ⟨e, he, rfl⟩ := (q4 i c).1 hc
      by_cases hij : j = i
      · subst hij
        rw [q1] at he; cases he
        rw [if_pos rfl]
        exact htell b _ x (h j b q1) rfl rfl (fun z hz => by rw [q2] at hz; exact hz)
      · rw [if_neg hij]
        exact htell e e x (h i e he) rfl rfl (fun z hz => List.mem_cons_of_mem _ hz)

/-- C130 without confirmations: a client whose messages have all been read shows what the server has. -/
theorem unconfirmed_agrees (v : Record T) (h : List (Step U T)) (i : Nat) (c : Client U T)
    (hc : (run false (start v) h).clients[i]? = some c) (hi : Idle c) :
    c.store.value = (run false (start v) h).server := by
  have key : ∀ (h : List (Step U T)) (s : Sys U T),
      (∀ (i : Nat) (c : Client U T), s.clients[i]? = some c → UGood s.server c) →
      ∀ (i : Nat) (c : Client U T), (run false s h).clients[i]? = some c → UGood (run false s h).server c := by
    intro h
    induction h with
    | nil => exact fun _ h => h
    | cons x h ih => exact fun s hs => ih (step false s x) (unconfirmed_step s x hs)
  obtain ⟨a, h1, h2⟩ := key h (start v) (by intro i c h; simp [start] at h) i c hc
  rw [hi.1] at h1
  rw [← h1]
  funext m
  exact h2 m (by rw [hi.1, hi.2]; simp)

/-- VIOLATION: without confirmations the client waits for an answer to each of its requests for ever, however often
the answer arrives. -/
theorem unconfirmed_waits_violated (s : Sys U T) (i : Nat) (c : Client U T) (hc : s.clients[i]? = some c) (u : U)
    (d : Delta T) (h : List (Step U T)) :
    ∃ c', (run false s (.request i u d :: h)).clients[i]? = some c' ∧ u ∈ c'.store.uids := by
  have hins : ∀ (u w : U) (l : List U), w ∈ l ∨ w = u → w ∈ insertUid u l := by
    intro u w l hw
    rw [insertUid]
    split
    · rename_i hm
      rcases hw with hw | rfl
      · exact hw
      · exact hm
    · rcases hw with hw | rfl <;> simp [*]
  have key : ∀ (h : List (Step U T)) (s : Sys U T) (c : Client U T), s.clients[i]? = some c → u ∈ c.store.uids →
      ∃ c', (run false s h).clients[i]? = some c' ∧ u ∈ c'.store.uids := by
    intro h
    induction h with
    | nil => exact fun s c h1 h2 => ⟨c, h1, h2⟩
    | cons x h ih =>
      intro s c h1 h2
      show ∃ c', (run false (step false s x) h).clients[i]? = some c' ∧ _
      cases x with
      | join =>
        refine ih _ c ?_ h2
        show (s.clients ++ _)[i]? = some c
        rw [List.getElem?_append_left (List.getElem?_eq_some_iff.1 h1).1]; exact h1
      | request j w d' =>
        refine ih _ _ (get_modify.2 ⟨c, h1, rfl⟩) ?_
        split
        · exact hins w u _ (.inl h2)
        · exact h2
      | change w d' => exact ih _ _ (get_map.2 ⟨c, h1, rfl⟩) h2
      | deliver j =>
        refine ih _ _ (get_modify.2 ⟨c, h1, rfl⟩) ?_
        split
        · rw [hear]
          split
          · exact h2
          · exact hins _ u _ (.inl h2)
        · exact h2
      | serve j =>
        rcases serve_eq false s j with e | ⟨b, x, rest, q1, q2, q3, q4⟩
        · rw [e]; exact ih s c h1 h2
        · refine ih _ _ ((q4 i _).2 ⟨c, h1, rfl⟩) ?_
          show u ∈ (if j = i then _ else _ : Client U T).store.uids
          split <;> exact h2
  exact key h _ _ (get_modify.2 ⟨c, hc, rfl⟩) (by rw [if_pos rfl]; exact hins u u _ (.inr rfl))

end Nbdl.Optimist
