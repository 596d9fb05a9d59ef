import Verif.Message.Model
/-! Message properties C35, C36, C37. -/
namespace Nbdl.Message
variable {K U V W : Type}

/-! ## C36 -/

/-- An optional field reads as it was given. -/
def fieldOf {α : Type} (o : Option α) (f : α → Val K U V W) : Access (Val K U V W) :=
  match o with
  | none => .absent
  | some a => .present (f a)

/-- The flag reads as it was given, false if it was not. -/
def flagOf (o : Option Bool) : Access (Val K U V W) := .present (.flag (o.getD false))

theorem pathArg_present (p : PathArg K U) (r : List (Val K U V W)) (k : Kind) :
    getPath ⟨k, p.val :: r⟩ = .present p.val := by
  cases p <;> rfl

theorem uid_field (k : Kind) (x : Val K U V W) (u : Option U) (r : List (Val K U V W)) :
    getUid ⟨k, x :: uidArg u :: r⟩ = fieldOf u .uid := by
  cases u <;> rfl

/-- C36: path, uid, payload and confirmation read as they were given, for each of the eight kinds; a
confirmation that was not given reads as false, and channel and action are those of the kind. -/
theorem accessors_partial (p : PathArg K U) (u : Option U) (v : V) (w : Option W) (c : Option Bool) :
    -- path
    (getPath (makeUpCreate p u v w) = .present p.val ∧ getPath (makeUpRead p u : Message K U V W) = .present p.val
      ∧ getPath (makeUpUpdate p u v : Message K U V W) = .present p.val
      ∧ getPath (makeUpDelete p u : Message K U V W) = .present p.val
      ∧ getPath (makeDownCreate p u v c : Message K U V W) = .present p.val
      ∧ getPath (makeDownRead p u v : Message K U V W) = .present p.val
      ∧ getPath (makeDownUpdate p u v c : Message K U V W) = .present p.val
      ∧ getPath (makeDownDelete p u c : Message K U V W) = .present p.val)
    -- uid
    ∧ (getUid (makeUpCreate p u v w) = fieldOf u .uid ∧ getUid (makeUpRead p u : Message K U V W) = fieldOf u .uid
      ∧ getUid (makeUpUpdate p u v : Message K U V W) = fieldOf u .uid
      ∧ getUid (makeUpDelete p u : Message K U V W) = fieldOf u .uid
      ∧ getUid (makeDownCreate p u v c : Message K U V W) = fieldOf u .uid
      ∧ getUid (makeDownRead p u v : Message K U V W) = fieldOf u .uid
      ∧ getUid (makeDownUpdate p u v c : Message K U V W) = fieldOf u .uid
      ∧ getUid (makeDownDelete p u c : Message K U V W) = fieldOf u .uid)
    -- payload
    ∧ (getPayload (makeUpCreate p u v w) = .present (.payload v)
      ∧ getPayload (makeUpUpdate p u v : Message K U V W) = .present (.payload v)
      ∧ getPayload (makeDownCreate p u v c : Message K U V W) = .present (.payload v)
      ∧ getPayload (makeDownRead p u v : Message K U V W) = .present (.payload v)
      ∧ getPayload (makeDownUpdate p u v c : Message K U V W) = .present (.payload v))
    -- confirmation
    ∧ (isConfirmed (makeUpCreate p u v w) = flagOf none ∧ isConfirmed (makeUpRead p u : Message K U V W) = flagOf none
      ∧ isConfirmed (makeUpUpdate p u v : Message K U V W) = flagOf none
      ∧ isConfirmed (makeUpDelete p u : Message K U V W) = flagOf none
      ∧ isConfirmed (makeDownCreate p u v c : Message K U V W) = flagOf c
      ∧ isConfirmed (makeDownUpdate p u v c : Message K U V W) = flagOf c
      ∧ isConfirmed (makeDownDelete p u c : Message K U V W) = flagOf c) := by
  refine ⟨⟨?_, ?_, ?_, ?_, ?_, ?_, ?_, ?_⟩, ⟨?_, ?_, ?_, ?_, ?_, ?_, ?_, ?_⟩, ⟨rfl, rfl, rfl, rfl, rfl⟩,
    rfl, rfl, rfl, rfl, ?_, ?_, ?_⟩
  all_goals first
    | exact pathArg_present _ _ _
    | exact uid_field _ _ _ _
    | (cases c <;> rfl)

/-- C36: channel and action determine the kind. -/
theorem kind_unique (k k' : Kind) (h1 : k.channel = k'.channel) (h2 : k.action = k'.action) : k = k' := by
  revert h1 h2; cases k <;> cases k' <;> simp [Kind.channel, Kind.action]

/-- C36 fails for private payloads: the accessor yields the uid instead, and nothing if there is no
uid, so that a private payload can never be read. -/
theorem private_payload_violated (p : PathArg K U) (u : Option U) (v : V) (w : W) :
    getPrivatePayload (makeUpCreate p u v (some w)) = fieldOf u .uid
    ∧ getPrivatePayload (makeUpCreate p u v (some w)) ≠ .present (.priv w)
    ∧ getPrivatePayload (makeUpCreate p u v (some w)) = getPrivatePayload (makeUpCreate p u v none : Message K U V W) := by
  cases u <;> refine ⟨rfl, ?_, rfl⟩ <;> simp [getPrivatePayload, makeUpCreate, optional, uidArg]

/-- C36: the message holds the private payload nonetheless, behind the payload. -/
theorem private_payload_held (p : PathArg K U) (u : Option U) (v : V) (w : W) :
    (makeUpCreate p u v (some w)).storage.drop 2 = [.payload v, .priv w]
    ∧ (makeUpCreate p u v none : Message K U V W).storage.drop 2 = [.payload v, .noImpl] := ⟨rfl, rfl⟩

/-- C36 fails for the question whether there is one: it asks for the uid. -/
theorem has_private_payload_violated (p : PathArg K U) (u : U) (v : V) (w : W) :
    hasPrivatePayload (makeUpCreate p none v (some w) : Message K U V W) = false
    ∧ hasPrivatePayload (makeUpCreate p (some u) v none : Message K U V W) = true := ⟨rfl, rfl⟩

/-- C36: whether there is a uid is answered as the message was built. -/
theorem has_uid (p : PathArg K U) (u : Option U) (v : V) (w : Option W) (c : Option Bool) :
    hasUid (makeUpCreate p u v w) = u.isSome ∧ hasUid (makeUpRead p u : Message K U V W) = u.isSome
    ∧ hasUid (makeUpUpdate p u v : Message K U V W) = u.isSome
    ∧ hasUid (makeUpDelete p u : Message K U V W) = u.isSome
    ∧ hasUid (makeDownCreate p u v c : Message K U V W) = u.isSome
    ∧ hasUid (makeDownRead p u v : Message K U V W) = u.isSome
    ∧ hasUid (makeDownUpdate p u v c : Message K U V W) = u.isSome
    ∧ hasUid (makeDownDelete p u c : Message K U V W) = u.isSome := by
  cases u <;> exact ⟨rfl, rfl, rfl, rfl, rfl, rfl, rfl, rfl⟩

/-- C36: asking whether a read answer is confirmed does not compile: it looks beyond the tuple. -/
theorem read_confirmed_violated (p : PathArg K U) (u : Option U) (v : V) :
    isConfirmed (makeDownRead p u v : Message K U V W) = .illFormed := rfl

example : getUid (makeUpCreate (.full [1, 2]) (some 7) "payload" (some 'w') : Message Nat Nat String Char) = .present (.uid 7) := rfl

/-! ## C35 -/

/-- C35: updates and deletes are turned around with path, uid and payload unchanged. -/
theorem echo_update_delete (p : PathArg K U) (u : Option U) (v : V) (c : Option Bool) :
    toDownstream (makeUpUpdate p u v : Message K U V W) c = .present (makeDownUpdate p u v c)
    ∧ toDownstream (makeUpDelete p u : Message K U V W) c = .present (makeDownDelete p u c) := by
  constructor <;> cases p <;> cases u <;> rfl

/-- C35: so are creates whose path is complete. -/
theorem echo_create_full (ks : List K) (u : Option U) (v : V) (w : Option W) (c : Option Bool) :
    toDownstream (makeUpCreate (.full ks) u v w) c = .present (makeDownCreate (.full ks) u v c) := by
  cases u <;> rfl

/-- C35: a create whose path is completed by its uid stands for the same path in both directions. -/
theorem echo_create_uid (parent : List K) (kt : KeyType K U) (u : Option U) (v : V) (w : Option W) (c : Option Bool) :
    let m := makeUpCreate (.create parent kt) u v w
    (requiresKey m = true → toDownstream m c = .illFormed)
    ∧ (requiresKey m = false →
        toDownstream m c = .present (makeDownCreate (.create parent kt) u v c)
        ∧ normalizedPath (makeDownCreate (.create parent kt) u v c : Message K U V W) = normalizedPath m
        ∧ normalizedPath m = some (parent ++ [match u, kt.fromUid with
            | some u, some f => f u
            | _, _ => kt.emptyKey])) := by
  cases u with
  | none =>
    cases h : kt.isEmpty <;>
      simp [requiresKey, toDownstream, normalizedPath, normalizedCreatePath, makeUpCreate, makeDownCreate, getPath,
        getUid, getPayload, required, optional, uidArg, PathArg.val, h, uidOrNone]
  | some u =>
    cases h : kt.fromUid <;>
      simp [requiresKey, toDownstream, normalizedPath, normalizedCreatePath, makeUpCreate, makeDownCreate, getPath,
        getUid, getPayload, required, optional, uidArg, PathArg.val, h, uidOrNone]

/-- C35: a create without a key gets the key appended and keeps uid and payload. -/
theorem echo_create_key (parent : List K) (kt : KeyType K U) (u : Option U) (v : V) (w : Option W) (k : K)
    (c : Option Bool) :
    toDownstreamWithKey (makeUpCreate (.create parent kt) u v w) k c
      = .present (makeDownCreate (.full (parent ++ [k])) u v c) := by
  cases u <;> rfl

/-- C35: a create needs a key from the producer exactly if its path is not complete and neither its uid
nor an empty key can complete it. -/
theorem requires_key (parent ks : List K) (kt : KeyType K U) (u : Option U) (v : V) (w : Option W) :
    requiresKey (makeUpCreate (.full ks) u v w) = false
    ∧ (requiresKey (makeUpCreate (.create parent kt) u v w) = true ↔
      (∃ u', u = some u' ∧ kt.fromUid = none) ∨ (u = none ∧ kt.isEmpty = false)) := by
  refine ⟨rfl, ?_⟩
  cases u with
  | none =>
    cases h : kt.isEmpty <;>
      simp [requiresKey, normalizedCreatePath, makeUpCreate, getPath, required, PathArg.val, getUid, optional,
        uidArg, h]
  | some u =>
    cases h : kt.fromUid <;>
      simp [requiresKey, normalizedCreatePath, makeUpCreate, getPath, required, PathArg.val, getUid, optional,
        uidArg, h]

/-- C35: a read is answered under its own path and uid. -/
theorem echo_read (p : PathArg K U) (u : Option U) (v : V) :
    toDownstreamRead (makeUpRead p u : Message K U V W) v = .present (makeDownRead p u v) := by
  cases p <;> cases u <;> rfl

/-- C35: the action is kept and the direction turned, whatever the message. -/
theorem echo_kind (m m' : Message K U V W) (c : Option Bool) (k : K) (v : V)
    (h : toDownstream m c = .present m' ∨ toDownstreamWithKey m k c = .present m' ∨ toDownstreamRead m v = .present m') :
    m.kind.channel = .upstream ∧ m'.kind.channel = .downstream ∧ m'.kind.action = m.kind.action := by
  rcases h with h | h | h
  · unfold toDownstream at h
    split at h
    · rename_i hk _ _
      split at h
      · injection h with h; subst h; rw [hk]; exact ⟨rfl, rfl, rfl⟩
      · cases h
    · rename_i hk _ _; injection h with h; subst h; rw [hk]; exact ⟨rfl, rfl, rfl⟩
    · rename_i hk _; injection h with h; subst h; rw [hk]; exact ⟨rfl, rfl, rfl⟩
    · cases h
  · unfold toDownstreamWithKey at h
    split at h
    · rename_i hk _ _; injection h with h; subst h; rw [hk]; exact ⟨rfl, rfl, rfl⟩
    · cases h
  · unfold toDownstreamRead at h
    split at h
    · rename_i hk _; injection h with h; subst h; rw [hk]; exact ⟨rfl, rfl, rfl⟩
    · cases h

/-- C35: the private payload never goes downstream: what is sent does not depend on it. -/
theorem private_stays {T : Type} [DecidableEq T] {n : Nat} (wrap : BitVec n → K) (counters : T → BitVec n) (t : T)
    (p : PathArg K U) (u : Option U) (v : V) (w w' : Option W) :
    echo wrap counters t (makeUpCreate p u v w) = echo wrap counters t (makeUpCreate p u v w') := by
  cases p <;> cases u <;> rfl

/-- C35: the echo producer answers every message but a read (for which there is no program). -/
theorem echo_answers {T : Type} [DecidableEq T] {n : Nat} (wrap : BitVec n → K) (counters : T → BitVec n) (t : T)
    (p : PathArg K U) (u : Option U) (v : V) (w : Option W) (ks : List K) :
    (∃ m, (echo wrap counters t (makeUpCreate p u v w)).2 = .present m ∧ m.kind = .downCreate
      ∧ (normalizedPath m).isSome = true)
    ∧ (echo wrap counters t (makeUpUpdate (.full ks) u v : Message K U V W)).2 = .present (makeDownUpdate (.full ks) u v none)
    ∧ (echo wrap counters t (makeUpDelete (.full ks) u : Message K U V W)).2 = .present (makeDownDelete (.full ks) u none)
    ∧ (echo wrap counters t (makeUpRead (.full ks) u : Message K U V W)).2 = .illFormed := by
  refine ⟨?_, ?_, ?_, ?_⟩
  · cases p with
    | full ks => cases u <;> exact ⟨_, rfl, rfl, rfl⟩
    | create parent kt =>
      cases hr : requiresKey (makeUpCreate (.create parent kt) u v w) with
      | true =>
        cases he : kt.isEmpty with
        | true =>
          refine ⟨makeDownCreate (.full (parent ++ [kt.emptyKey])) u v none, ?_, rfl, by cases u <;> rfl⟩
          unfold echo
          rw [if_pos hr, show getPath (makeUpCreate (.create parent kt) u v w) = .present (.createPath parent kt) from rfl]
          simp only [he, if_true]
          exact echo_create_key parent kt u v w _ none
        | false =>
          refine ⟨makeDownCreate (.full (parent ++ [wrap (makeUniqueKey counters t).2])) u v none, ?_, rfl, by cases u <;> rfl⟩
          unfold echo
          rw [if_pos hr, show getPath (makeUpCreate (.create parent kt) u v w) = .present (.createPath parent kt) from rfl]
          simp only [he, Bool.false_eq_true, if_false]
          exact echo_create_key parent kt u v w _ none
      | false =>
        obtain ⟨h1, h2, h3⟩ := (echo_create_uid parent kt u v w none).2 hr
        refine ⟨makeDownCreate (.create parent kt) u v none, ?_, rfl, ?_⟩
        · unfold echo; rw [if_neg (by rw [hr]; simp)]; exact h1
        · rw [h2, h3]; rfl
  · cases u <;> rfl
  · cases u <;> rfl
  · cases u <;> rfl

example : echo (fun k : BitVec 32 => k) (fun _ : Unit => 4#32) ()
      (makeUpCreate (.create [9#32] ⟨false, 0, none⟩) (some 7) "payload" (some 'w') : Message (BitVec 32) Nat String Char)
    = (fun _ => 5#32, .present (makeDownCreate (.full [9#32, 5#32]) (some 7) "payload" none)) := rfl

/-! ## C37 -/

theorem uniqueKeys_same {T : Type} [DecidableEq T] {w : Nat} (counters : T → BitVec w) (t : T) (n : Nat) :
    uniqueKeys counters (List.replicate n t) = (List.range' 1 n).map fun i => counters t + BitVec.ofNat w i := by
  induction n generalizing counters with
  | zero => rfl
  | succ n ih =>
    rw [List.replicate_succ, List.range'_succ]
    simp only [uniqueKeys, List.map_cons, makeUniqueKey]
    rw [ih]
    congr 1
    simp only [if_true]
    rw [List.range'_eq_map_range, List.range'_eq_map_range, List.map_map, List.map_map]
    apply List.map_congr_left
    intro i _
    simp only [Function.comp]
    apply BitVec.eq_of_toNat_eq
    simp [BitVec.toNat_add]
    congr 1
    omega

/-- C37, for the creates of one message type: as long as fewer than `2^w` keys are given out, the
keys are `1, 2, 3, …`: different from each other and never 0. -/
theorem keys_unique_partial {T : Type} [DecidableEq T] {w : Nat} (t : T) (n : Nat) (hn : n < 2 ^ w) :
    (uniqueKeys (fun _ => 0#w) (List.replicate n t)).Nodup
    ∧ (∀ k ∈ uniqueKeys (fun _ => 0#w) (List.replicate n t), k ≠ 0#w)
    ∧ (uniqueKeys (fun _ => 0#w) (List.replicate n t)).length = n := by
  rw [uniqueKeys_same]
  have hv : ∀ i, 1 ≤ i → i < 1 + n → (0#w + BitVec.ofNat w i).toNat = i := by
    intro i h1 h2
    simp
    exact Nat.mod_eq_of_lt (by omega)
  refine ⟨?_, ?_, by simp⟩
  · show List.Pairwise _ _
    rw [List.pairwise_map]
    apply List.Pairwise.imp_of_mem _ (List.pairwise_lt_range' (s := 1) (n := n))
    intro a b ha hb hlt he
    have ha' := List.mem_range'_1.1 ha
    have hb' := List.mem_range'_1.1 hb
    have := congrArg BitVec.toNat he
    rw [hv a ha'.1 ha'.2, hv b hb'.1 hb'.2] at this
    omega
  · intro k hk he
    obtain ⟨i, hi, rfl⟩ := List.mem_map.1 hk
    have hi' := List.mem_range'_1.1 hi
    have := congrArg BitVec.toNat he
    rw [hv i hi'.1 hi'.2] at this
    simp at this
    omega

/-- C37: the creates of other message types do not disturb the keys of one of them. -/
theorem keys_independent {T : Type} [DecidableEq T] {w : Nat} (counters : T → BitVec w) (t : T) (ts : List T) :
    (((uniqueKeys counters ts).zip ts).filter fun x => x.2 = t).map (·.1)
      = uniqueKeys counters (List.replicate (ts.count t) t) := by
  induction ts generalizing counters with
  | nil => rfl
  | cons x ts ih =>
    simp only [uniqueKeys, List.zip_cons_cons, List.filter_cons]
    by_cases h : x = t
    · subst h
      simp only [decide_true, if_true, List.map_cons, List.count_cons_self, List.replicate_succ, uniqueKeys, ih]
    · simp only [h, decide_false, Bool.false_eq_true, if_false, ih, List.count_cons_of_ne h]
      rw [uniqueKeys_same, uniqueKeys_same]
      simp [makeUniqueKey, Ne.symm h]

/-- C37 fails across message types: a create with a uid and one without are different C++ types, have
counters of their own, and get the same key for the same path. -/
theorem keys_collide_violated {T : Type} [DecidableEq T] {w : Nat} (t t' : T) (h : t ≠ t') :
    uniqueKeys (fun _ => 0#w) [t, t'] = [1#w, 1#w] := by
  simp [uniqueKeys, makeUniqueKey, Ne.symm h]

/-- C37 fails when the counter wraps: the `2^w`-th key is 0. -/
theorem keys_wrap_violated {T : Type} [DecidableEq T] {w : Nat} (t : T) :
    0#w ∈ uniqueKeys (fun _ => 0#w) (List.replicate (2 ^ w) t) := by
  rw [uniqueKeys_same]
  apply List.mem_map.2
  refine ⟨2 ^ w, ?_, by apply BitVec.eq_of_toNat_eq; simp⟩
  rw [List.mem_range'_1]
  have := Nat.two_pow_pos w
  omega

example : uniqueKeys (fun _ : Unit => 0#32) (List.replicate 3 ()) = [1#32, 2#32, 3#32] := by decide
example : (3 : Nat) < 2 ^ 32 := by decide

end Nbdl.Message
