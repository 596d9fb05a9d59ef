import Verif.Def.Lemmas
/-! # Properties C52, C65, C66 -/
namespace Nbdl.Def
open Nbdl.Mpdef Nbdl.Mpdef.Spec Nbdl.Def.Spec

/-! ## C52: access points -/

theorem metaFrom_root (d : Node) : metaFrom [] d = metaAt d := by
  funext p
  unfold metaFrom
  cases metaAt d p <;> simp

/-- C52, for every definition that compiles: what is enumerated are access points with actions or a store,
each at most once, in the order of the definition, each with the keys on the way from the root. -/
theorem access_points_sound (d : Node) (l : List Meta) (h : enumerateAccessPoints d = some l) :
    ∃ ps : List (List Nat), ps.Pairwise (· < ·) ∧ (∀ p ∈ ps, Relevant d p) ∧ l.map some = ps.map (metaAt d) :=
  ⟨positions d, positions_sorted d, positions_sound d, by rw [enum_spec d [] l h, metaFrom_root]⟩

/-- C52, the part that holds: for well-formed definitions every one is enumerated.  Missing: definitions
where a directive has its access points in more than one place (see below). -/
theorem access_points_partial (d : Node) (hw : WellFormed d) :
    ∃ (l : List Meta) (ps : List (List Nat)), enumerateAccessPoints d = some l ∧ ps.Pairwise (· < ·) ∧ (∀ p, p ∈ ps ↔ Relevant d p)
      ∧ l.map some = ps.map (metaAt d) := by
  obtain ⟨l, hl⟩ := Option.isSome_iff_exists.1 (enum_some d hw [])
  refine ⟨l, positions d, hl, positions_sorted d, fun p => ⟨positions_sound d p, positions_complete d hw p⟩, ?_⟩
  rw [enum_spec d [] l hl, metaFrom_root]

/-- An access point with a key and actions. -/
def ap (key : Nat) (more : List Node) : Node := .map .accessPoint (.leaf .pathKey (.user key) :: more)
def acts (l : List Tag) : Node := .map .actions (l.map fun k => .map k [])

/-- A producer like the one in the tests: nested access points, some without actions. -/
def sampleProducer : Node :=
  .map .producer [.leaf .type (.user 100),
    .list .accessPoints
      [ap 1 [.leaf .entity (.user 21), .list .accessPoints [ap 2 [acts [.create, .read]], ap 3 [ap 4 [acts [.create]]]]],
       ap 5 [.leaf .store (.user 30), .list .listenPaths [.list .path [.atom (.user 1), .atom (.user 2)]], ap 6 []]]]

example : WellFormed sampleProducer := by
  simp [sampleProducer, ap, acts, WellFormed, AllWellFormed, WellFormedOnly, NoAccessPoint, NoAccessPoints, hasOne,
    mapFind, findTy, Tree.key?, leafTy, only, typeSaid, List.countP_cons]
example : (enumerateAccessPoints sampleProducer).map (fun l => l.map (·.path))
    = some [[.user 1, .user 2], [.user 1, .user 3, .user 4], [.user 5]] := by rfl
example : Relevant sampleProducer [1, 0, 2, 1, 1] := ⟨_, rfl, .inl (by decide)⟩

/-- C52 violated: in a producer that has both `AccessPoint` and `AccessPoints` the former is lost, and so are
two `AccessPoint`s next to each other. -/
theorem access_point_lost_violated :
    (enumerateAccessPoints (.map .producer [ap 1 [acts [.create]], .list .accessPoints [ap 2 [acts [.create]]]])).map
        (fun l => l.map (·.path)) = some [[.user 2]]
    ∧ enumerateAccessPoints (.map .producer [ap 1 [acts [.create]], ap 2 [acts [.create]]]) = some []
    ∧ Relevant (.map .producer [ap 1 [acts [.create]], .list .accessPoints [ap 2 [acts [.create]]]]) [0]
    ∧ Relevant (.map .producer [ap 1 [acts [.create]], ap 2 [acts [.create]]]) [1] :=
  ⟨rfl, rfl, ⟨_, rfl, .inl (by decide)⟩, ⟨_, rfl, .inl (by decide)⟩⟩

/-! ## C65: actors, stores and listeners -/

theorem unique_subset {α : Type} [DecidableEq α] : (l : List α) → ∀ a, a ∈ unique l ↔ a ∈ l
  | [], a => by simp [unique]
  | [b], a => by simp [unique]
  | b :: c :: l, a => by
    have ih := unique_subset (c :: l) a
    unfold unique
    split
    · rename_i h; subst h; rw [ih]; simp
    · rw [List.mem_cons, ih, List.mem_cons]; simp

theorem unique_nodup {α : Type} [DecidableEq α] : (l : List α) → l.Nodup → unique l = l
  | [], _ => rfl
  | [b], _ => rfl
  | b :: c :: l, h => by
    have h' := List.nodup_cons.1 h
    unfold unique
    rw [if_neg (fun e => h'.1 (by simp [e])), unique_nodup (c :: l) h'.2]

theorem count_one_filter {α β : Type} [DecidableEq α] {l : List (α × β)} {k : α} {b : β} (h : (k, b) ∈ l)
    (hn : (l.map (·.1)).count k = 1) : atKey l k = some b := by
  have hlen : (l.filter fun e => e.1 = k).length = 1 := by
    rw [← hn, List.count, List.countP_map, List.countP_eq_length_filter]
    congr 2
  obtain ⟨e, he⟩ := List.length_eq_one_iff.1 hlen
  have hm : (k, b) ∈ l.filter fun e => e.1 = k := List.mem_filter.2 ⟨h, by simp⟩
  unfold atKey
  rw [he] at hm ⊢
  simp only [List.mem_singleton] at hm
  rw [← hm]

theorem atKey_mem {α β : Type} [DecidableEq α] {l : List (α × β)} {k : α} {b : β} (h : atKey l k = some b) :
    (k, b) ∈ l := by
  unfold atKey at h
  split at h
  · rename_i e he
    simp only [Option.some.injEq] at h
    have : e ∈ l.filter fun e => e.1 = k := by rw [he]; simp
    obtain ⟨h1, h2⟩ := List.mem_filter.1 this
    simp only [decide_eq_true_eq] at h2
    rw [← h2, ← h]; exact h1
  · simp at h

theorem lookup_mem (ps : List ProducerMeta) (k : Key) (i : Nat) :
    (k, i) ∈ producerLookup ps ↔ ∃ p, ps[i]? = some p ∧ k ∈ producerKeys p := by
  unfold producerLookup
  simp only [List.mem_flatMap, List.mem_map, Prod.exists, Prod.mk.injEq]
  constructor
  · rintro ⟨p, j, hm, k', hk, rfl, rfl⟩
    exact ⟨p, by simpa using List.mem_zipIdx_iff_getElem?.1 hm, hk⟩
  · rintro ⟨p, hp, hk⟩
    exact ⟨p, i, List.mem_zipIdx_iff_getElem?.2 (by simpa using hp), k, hk, rfl, rfl⟩

theorem keys_lookup (ps : List ProducerMeta) : (producerLookup ps).map (·.1) = ps.flatMap producerKeys := by
  have gen : ∀ (ps : List ProducerMeta) (n : Nat),
      ((ps.zipIdx n).flatMap fun (p, i) => (producerKeys p).map fun k => (k, i)).map (·.1) = ps.flatMap producerKeys := by
    intro ps
    induction ps with
    | nil => simp
    | cons p ps ih =>
      intro n
      simp only [List.zipIdx_cons, List.flatMap_cons, List.map_append, ih, List.map_map]
      congr 1
      exact List.map_id'' (fun _ => rfl) _
  exact gen ps 0

theorem count_path (ps : List ProducerMeta) (hn : ((ps.flatMap (·.accessPoints)).map (·.path)).Nodup) (x : List Ty) :
    (ps.flatMap producerKeys).count (.path x) = ((ps.flatMap (·.accessPoints)).map (·.path)).count x := by
  induction ps with
  | nil => simp
  | cons p ps ih =>
    simp only [List.flatMap_cons, List.map_append, List.count_append] at hn ⊢
    have hn := List.nodup_append.1 hn
    rw [ih hn.2.1]
    congr 1
    unfold producerKeys
    rw [unique_nodup _ hn.1, List.count_append]
    have h0 : List.count (Key.path x) [Key.name p.name] = 0 := by simp
    rw [h0, Nat.add_zero]
    generalize p.accessPoints.map (·.path) = l
    induction l with
    | nil => rfl
    | cons a l ih => simp only [List.map_cons, List.count_cons, ih]; simp

/-- C65: in a context that compiles, a message for the path of an access point is handed to the producer the
access point was defined in, and to no other: the lookup gives its index among the actors. -/
theorem lookup_exact (isEmpty : Ty → Bool) (d : Node) (cm : ContextMeta) (h : contextMeta isEmpty d = some cm) :
    ∃ ps cs, enumerateProducers d = some ps ∧ enumerateConsumers d = some cs
      ∧ cm.actorTypes = ps.map (·.producer) ++ cs.map (·.consumer)
      ∧ cm.actorNames = ps.map (·.name) ++ cs.map (·.name)
      ∧ ∀ (x : List Ty) (i : Nat), atKey cm.lookup (.path x) = some i
          ↔ ∃ p, ps[i]? = some p ∧ ∃ a ∈ p.accessPoints, a.path = x := by
  unfold contextMeta at h
  split at h
  · simp at h
  · split at h
    · rename_i ps cs hps hcs
      split at h
      · rename_i st api hst hapi
        simp only [Option.some.injEq] at h
        subst h
        refine ⟨ps, cs, hps, hcs, rfl, rfl, ?_⟩
        intro x i
        have hn : ((ps.flatMap (·.accessPoints)).map (·.path)).Nodup := by
          unfold storeMap at hst
          split at hst
          · assumption
          · simp at hst
        have hmem : ∀ i, (Key.path x, i) ∈ producerLookup ps ↔ ∃ p, ps[i]? = some p ∧ ∃ a ∈ p.accessPoints, a.path = x := by
          intro i
          rw [lookup_mem]
          constructor
          · rintro ⟨p, hp, hk⟩
            refine ⟨p, hp, ?_⟩
            unfold producerKeys at hk
            simp only [List.mem_append, List.mem_map, List.mem_singleton, reduceCtorEq, or_false, Key.path.injEq,
              exists_eq_right, unique_subset] at hk
            exact hk
          · rintro ⟨p, hp, hk⟩
            refine ⟨p, hp, ?_⟩
            unfold producerKeys
            simp only [List.mem_append, List.mem_map, List.mem_singleton, reduceCtorEq, or_false, Key.path.injEq,
              exists_eq_right, unique_subset]
            exact hk
        rw [← hmem]
        constructor
        · exact atKey_mem
        · intro hm
          apply count_one_filter hm
          rw [keys_lookup, count_path ps hn]
          have hx : x ∈ (ps.flatMap (·.accessPoints)).map (·.path) := by
            obtain ⟨p, hp, a, ha, hax⟩ := (hmem i).1 hm
            exact List.mem_map.2 ⟨a, List.mem_flatMap.2 ⟨p, List.mem_of_getElem? hp, ha⟩, hax⟩
          have h1 := List.nodup_iff_count.1 hn x
          have h2 := List.count_pos_iff.2 hx
          omega
      · simp at h
    · simp at h

theorem mapM_isSome {α β : Type} (f : α → Option β) : ∀ l : List α,
    (l.mapM f).isSome = true ↔ ∀ a ∈ l, (f a).isSome = true
  | [] => by simp
  | a :: l => by
    have ih := mapM_isSome f l
    rw [List.mapM_cons, List.forall_mem_cons, ← ih]
    cases f a <;> cases l.mapM f <;> simp

/-- C65: a definition compiles exactly if it is one of a context, its producers and consumers can be
enumerated, the paths of their access points are distinct and each has message types. -/
theorem compiles_exact (isEmpty : Ty → Bool) (d : Node) :
    (contextMeta isEmpty d).isSome = true ↔
      d.key? = some .context ∧ ∃ ps cs, enumerateProducers d = some ps ∧ enumerateConsumers d = some cs
        ∧ ((ps.flatMap (·.accessPoints)).map (·.path)).Nodup
        ∧ ∀ a ∈ ps.flatMap (·.accessPoints), (entityMessages isEmpty a).isSome = true := by
  by_cases hk : d.key? = some .context
  · simp only [contextMeta, hk, ne_eq, not_true, if_false, true_and]
    cases hp : enumerateProducers d with
    | none => simp
    | some ps =>
      cases hc : enumerateConsumers d with
      | none => simp
      | some cs =>
        simp only [Option.some.injEq, exists_and_left, exists_eq_left', ← mapM_isSome]
        simp only [storeMap, messageApi]
        by_cases hn : ((ps.flatMap (·.accessPoints)).map (·.path)).Nodup
        · rw [if_pos hn]
          cases (ps.flatMap (·.accessPoints)).mapM (entityMessages isEmpty) <;> simp [hn]
        · rw [if_neg hn]
          simp [hn]
  · simp [contextMeta, hk]

/-- C65: a context has one store for each access point, and no two of them have the same path. -/
theorem stores_exact (isEmpty : Ty → Bool) (d : Node) (cm : ContextMeta) (h : contextMeta isEmpty d = some cm) :
    ∃ ps, enumerateProducers d = some ps
      ∧ cm.stores = (ps.flatMap (·.accessPoints)).map (fun a => (a.path, a.store, a.entity))
      ∧ (cm.stores.map (·.1)).Nodup := by
  unfold contextMeta at h
  split at h
  · simp at h
  · split at h
    · rename_i ps cs hps hcs
      split at h
      · rename_i st api hst hapi
        simp only [Option.some.injEq] at h
        subst h
        unfold storeMap at hst
        split at hst
        · rename_i hn
          simp only [Option.some.injEq] at hst
          subst hst
          exact ⟨ps, hps, rfl, by simpa [Function.comp_def] using hn⟩
        · simp at hst
      · simp at h
    · simp at h

/-- C65: the listeners found for a path are the paths of exactly the access points that list it, in the order
of the definition. -/
theorem listeners_exact (ps : List ProducerMeta) (x : List Ty) :
    ((listenerLookup ps).find? (fun e => e.1 = x)).map (·.2)
      = let l := (ps.flatMap (·.accessPoints)).flatMap fun a => (a.listenPaths.filter (· = x)).map fun _ => a.path
        if l = [] then none else some l := by
  unfold listenerLookup
  rw [group_exact]
  generalize ps.flatMap (·.accessPoints) = aps
  have hv : valuesOf (aps.flatMap listenerPairs) x
      = aps.flatMap fun a => (a.listenPaths.filter (· = x)).map fun _ => a.path := by
    unfold valuesOf
    induction aps with
    | nil => rfl
    | cons a aps ih =>
      simp only [List.flatMap_cons, List.filter_append, List.map_append, List.flatten_append, ih]
      congr 1
      unfold listenerPairs
      induction a.listenPaths with
      | nil => rfl
      | cons y ys ih =>
        simp only [List.map_cons, List.filter_cons]
        by_cases h : y = x <;> simp [h, ih]
  have hk : x ∈ (aps.flatMap listenerPairs).map (·.1)
      ↔ aps.flatMap (fun a => (a.listenPaths.filter (· = x)).map fun _ => a.path) ≠ [] := by
    simp only [List.mem_map, List.mem_flatMap, listenerPairs, ne_eq, List.flatMap_eq_nil_iff, List.map_eq_nil_iff,
      List.filter_eq_nil_iff, decide_eq_true_eq]
    constructor
    · rintro ⟨e, ⟨a, ha, y, hy, rfl⟩, rfl⟩ hall
      exact hall a ha y hy rfl
    · intro hne
      apply Classical.byContradiction
      intro hno
      exact hne fun a ha y hy hyx => hno ⟨(y, [a.path]), ⟨a, ha, y, hy, rfl⟩, hyx⟩
  simp only
  rw [← hv] at hk
  rw [← hv]
  generalize hf : aps.flatMap listenerPairs = l at *
  by_cases hx : x ∈ l.map (·.1)
  · rw [if_neg (hk.1 hx)]
    have hx' := (firsts_exact (l.map (·.1))).2 x |>.2 hx
    generalize firsts (l.map (·.1)) = ks at hx'
    induction ks with
    | nil => simp at hx'
    | cons k ks ih =>
      by_cases hkx : k = x
      · simp [hkx]
      · rcases List.mem_cons.1 hx' with h | h
        · exact absurd h.symm hkx
        · simpa [hkx] using ih h
  · rw [if_pos (Classical.byContradiction fun h => hx (hk.2 h))]
    have hx' : x ∉ firsts (l.map (·.1)) := fun h => hx ((firsts_exact (l.map (·.1))).2 x |>.1 h)
    generalize firsts (l.map (·.1)) = ks at hx'
    simp only [Option.map_eq_none_iff, List.find?_eq_none, List.mem_map, decide_eq_true_eq]
    rintro _ ⟨k, hkk, rfl⟩ rfl
    exact hx' hkk

def sampleContext : Node :=
  .map .context
    [.list .producers [sampleProducer, .map .producer [.leaf .type (.user 101), ap 7 [acts [.update]]]],
     .list .consumers [.map .consumer [.leaf .type (.user 200)]]]

/-- The sample compiles. -/
example : (contextMeta (fun _ => false) sampleContext).isSome = true := by rfl
example : (contextMeta (fun _ => false) sampleContext).map (·.actorTypes) = some [.user 100, .user 101, .user 200] := by rfl
example : (contextMeta (fun _ => false) sampleContext).map (·.listeners) = some [([.user 1, .user 2], [[.user 5]])] := by rfl
example : (contextMeta (fun _ => false) sampleContext).bind (fun c => atKey c.lookup (.path [.user 7])) = some 1 := by rfl

/-- C65: consumers that are all in one `Consumers` directive, or a `Consumer` directive alone, are all found, in
order. -/
theorem consumers_exact_partial (d : Node) :
    (∀ cs, d.kids.filter (fun t => t.key? = some .consumers) = [cs] →
      enumerateConsumers d = cs.kids.mapM consumerMeta) ∧
    (∀ c, d.kids.filter (fun t => t.key? = some .consumers) = [] →
      d.kids.filter (fun t => t.key? = some .consumer) = [c] →
      enumerateConsumers d = (consumerMeta c).map ([·])) := by
  refine ⟨fun cs h => ?_, fun c h h2 => ?_⟩
  · simp [enumerateConsumers, Mpdef.mapFind, h]
  · simp only [enumerateConsumers, Mpdef.mapFind, h, h2]
    cases hc : consumerMeta c <;> simp [hc]

example (a b : Ty) : enumerateConsumers (.map .context [.map .consumer [.leaf .type a]]) = some [⟨a, a⟩]
    ∧ enumerateConsumers (.map .context [.list .consumers [.map .consumer [.leaf .type a], .map .consumer [.leaf .type b]]])
      = some [⟨a, a⟩, ⟨b, b⟩] := ⟨rfl, rfl⟩

/-- C65 violated: of consumers that are not in one `Consumers` directive some or all are lost: two `Consumer`
directives are both ignored, and so is a `Consumer` next to `Consumers`. -/
theorem consumers_lost_violated (a b : Ty) :
    enumerateConsumers (.map .context [.map .consumer [.leaf .type a], .map .consumer [.leaf .type b]]) = some []
    ∧ enumerateConsumers (.map .context [.map .consumer [.leaf .type a], .list .consumers [.map .consumer [.leaf .type b]]])
        = some [⟨b, b⟩] := ⟨rfl, rfl⟩

/-! ## C66: message types -/

/-- What an access point contributes, given its actions. -/
def actionsList (a : Meta) : Option (List Message.Action) := a.actions.mapM actionOf

theorem partition_append {α : Type} (p : α → Bool) (l m : List α) :
    (l ++ m).partition p = ((l.partition p).1 ++ (m.partition p).1, (l.partition p).2 ++ (m.partition p).2) := by
  simp [List.partition_eq_filter_filter]

theorem mapM_append {α β : Type} (f : α → Option β) (l m : List α) :
    (l ++ m).mapM f = (l.mapM f).bind fun x => (m.mapM f).map fun y => x ++ y := by
  rw [List.mapM_append]
  cases l.mapM f <;> cases m.mapM f <;> rfl

/-- C66: adding producers after the existing ones keeps the numbers of all existing message types: the new
ones come after them. -/
theorem message_ids_stable (isEmpty : Ty → Bool) (ps qs : List ProducerMeta) (u d u' d' : List MsgType)
    (h : messageApi isEmpty ps = some (u, d)) (h' : messageApi isEmpty qs = some (u', d')) :
    messageApi isEmpty (ps ++ qs) = some (u ++ u', d ++ d') := by
  unfold messageApi at *
  rw [List.flatMap_append, mapM_append]
  split at h
  · simp at h
  · rename_i l hl
    split at h'
    · simp at h'
    · rename_i l' hl'
      simp only [Option.some.injEq] at h h'
      rw [hl, hl']
      simp only [Option.bind_some, Option.map_some, List.flatten_append]
      rw [partition_append, h, h']

/-- C66: more generally only the sequence of all access points matters, and what is added at its end comes
after everything else. -/
theorem message_ids_by_access_point (isEmpty : Ty → Bool) (ps qs : List ProducerMeta) (more : List Meta)
    (h : qs.flatMap (·.accessPoints) = ps.flatMap (·.accessPoints) ++ more) (u d u' d' : List MsgType)
    (h1 : messageApi isEmpty ps = some (u, d)) (h2 : messageApi isEmpty qs = some (u', d')) :
    u <+: u' ∧ d <+: d' := by
  have h3 : messageApi isEmpty qs = messageApi isEmpty (ps ++ [⟨.void, .void, more⟩]) := by
    unfold messageApi; rw [h]; simp
  cases hm : messageApi isEmpty [⟨.void, .void, more⟩] with
  | none =>
    exfalso
    unfold messageApi at hm h2
    rw [h, mapM_append] at h2
    split at hm
    · rename_i hn
      simp only [List.flatMap_cons, List.flatMap_nil, List.append_nil] at hn
      rw [hn] at h2
      cases (ps.flatMap (·.accessPoints)).mapM (entityMessages isEmpty) <;> simp at h2
    · simp at hm
  | some r =>
    have := message_ids_stable isEmpty ps [⟨.void, .void, more⟩] u d r.1 r.2 h1 hm
    rw [h3, this] at h2
    simp only [Option.some.injEq, Prod.mk.injEq] at h2
    obtain ⟨rfl, rfl⟩ := h2
    exact ⟨List.prefix_append _ _, List.prefix_append _ _⟩

/-- All upstream messages an access point should have. -/
def wantedUp (isEmpty : Ty → Bool) (a : Meta) (m : MsgType) : Prop :=
  ∃ t ∈ a.actions, ∃ act, actionOf t = some act ∧ m.path = a.path ∧ m.kind.channel = .upstream ∧ m.kind.action = act
    ∧ m.payload = (if act = .create ∨ act = .update then .entity a.entity else .none)
    ∧ m.createPath = decide (act = .create ∧ ∃ k, a.path.getLast? = some k ∧ isEmpty k = false)

/-- All downstream messages an access point should have. -/
def wantedDown (a : Meta) (m : MsgType) : Prop :=
  ∃ t ∈ a.actions, ∃ act, actionOf t = some act ∧ m.path = a.path ∧ m.kind.channel = .downstream ∧ m.kind.action = act
    ∧ m.createPath = false
    ∧ (if act = .delete then m.payload = .none
       else m.payload = .entity a.entity ∨ (act = .read ∧ m.payload = .notFound))

theorem mapM_mem {α β : Type} {f : α → Option β} : {l : List α} → {r : List β} → l.mapM f = some r →
    ∀ b, b ∈ r ↔ ∃ a ∈ l, f a = some b
  | [], r, h, b => by simp at h; subst h; simp
  | a :: l, r, h, b => by
    rw [List.mapM_cons] at h
    cases h1 : f a with
    | none => rw [h1] at h; simp at h
    | some x =>
      rw [h1] at h
      cases h2 : l.mapM f with
      | none => rw [h2] at h; simp at h
      | some y =>
        rw [h2] at h
        simp only [Option.pure_def, Option.bind_eq_bind, Option.bind_some, Option.some.injEq] at h
        subst h
        rw [List.mem_cons, mapM_mem h2]
        constructor
        · rintro (rfl | ⟨c, hc, hb⟩)
          · exact ⟨a, by simp, h1⟩
          · exact ⟨c, by simp [hc], hb⟩
        · rintro ⟨c, hc, hb⟩
          rcases List.mem_cons.1 hc with rfl | hc
          · rw [h1] at hb; simp only [Option.some.injEq] at hb; exact .inl hb.symm
          · exact .inr ⟨c, hc, hb⟩

theorem upstreamOf_mem (isEmpty : Ty → Bool) (a : Meta) (act : Message.Action) (m : MsgType) :
    m ∈ upstreamOf isEmpty a act ↔ m.path = a.path ∧ m.kind.channel = .upstream ∧ m.kind.action = act
      ∧ m.payload = (if act = .create ∨ act = .update then .entity a.entity else .none)
      ∧ m.createPath = decide (act = .create ∧ ∃ k, a.path.getLast? = some k ∧ isEmpty k = false) := by
  obtain ⟨kind, path, cp, pl⟩ := m
  have hb : (match a.path.getLast? with | some k => !isEmpty k | none => false)
      = decide (∃ k, a.path.getLast? = some k ∧ isEmpty k = false) := by
    cases a.path.getLast? with
    | none => simp
    | some k => cases h : isEmpty k <;> simp [h]
  cases act <;> cases kind <;> simp [upstreamOf, Message.Kind.channel, Message.Kind.action, and_comm, and_left_comm]
  intro _ _
  rw [← hb]
  exact Iff.rfl


theorem downstreamOf_mem (a : Meta) (act : Message.Action) (m : MsgType) :
    m ∈ downstreamOf a act ↔ m.path = a.path ∧ m.kind.channel = .downstream ∧ m.kind.action = act
      ∧ m.createPath = false
      ∧ (if act = .delete then m.payload = .none
         else m.payload = .entity a.entity ∨ (act = .read ∧ m.payload = .notFound)) := by
  obtain ⟨kind, path, cp, pl⟩ := m
  cases act <;> cases kind <;>
    simp [downstreamOf, Message.Kind.channel, Message.Kind.action, and_or_left]

/-- C66: the message types of a context are exactly those its access points have actions for: each action has
its upstream message and its downstream message, and a read may also be answered by `not_found`. -/
theorem messages_exact (isEmpty : Ty → Bool) (ps : List ProducerMeta) (u d : List MsgType)
    (h : messageApi isEmpty ps = some (u, d)) (m : MsgType) :
    (m ∈ u ↔ ∃ p ∈ ps, ∃ a ∈ p.accessPoints, wantedUp isEmpty a m)
      ∧ (m ∈ d ↔ ∃ p ∈ ps, ∃ a ∈ p.accessPoints, wantedDown a m) := by
  unfold messageApi at h
  split at h
  · simp at h
  · rename_i l hl
    simp only [Option.some.injEq] at h
    rw [List.partition_eq_filter_filter, Prod.mk.injEq] at h
    obtain ⟨rfl, rfl⟩ := h
    have hmem : m ∈ l.flatten ↔ ∃ a ∈ ps.flatMap (·.accessPoints), ∃ as, a.actions.mapM actionOf = some as
        ∧ ((∃ act ∈ as, m ∈ upstreamOf isEmpty a act) ∨ ∃ act ∈ as, m ∈ downstreamOf a act) := by
      rw [List.mem_flatten]
      constructor
      · rintro ⟨x, hx, hm⟩
        obtain ⟨a, ha, hax⟩ := (mapM_mem hl x).1 hx
        unfold entityMessages at hax
        split at hax
        · simp at hax
        · rename_i as has
          simp only [Option.some.injEq] at hax
          subst hax
          exact ⟨a, ha, as, has, by simpa using hm⟩
      · rintro ⟨a, ha, as, has, hm⟩
        refine ⟨as.flatMap (upstreamOf isEmpty a) ++ as.flatMap (downstreamOf a), ?_, by simpa using hm⟩
        rw [mapM_mem hl]
        exact ⟨a, ha, by unfold entityMessages; rw [has]⟩
    have hall : ∀ a ∈ ps.flatMap (·.accessPoints), ∃ as, a.actions.mapM actionOf = some as := by
      intro a ha
      apply Classical.byContradiction
      intro hno
      have hne : entityMessages isEmpty a = none := by
        unfold entityMessages
        cases hx : a.actions.mapM actionOf with
        | none => rfl
        | some as => exact absurd ⟨as, hx⟩ hno
      have key : ∀ (xs : List Meta) r, xs.mapM (entityMessages isEmpty) = some r → a ∉ xs := by
        intro xs
        induction xs with
        | nil => simp
        | cons y ys ih =>
          intro r hr hy
          rw [List.mapM_cons] at hr
          rcases List.mem_cons.1 hy with rfl | hy
          · rw [hne] at hr; simp at hr
          · cases h1 : entityMessages isEmpty y with
            | none => rw [h1] at hr; simp at hr
            | some z =>
              cases h2 : ys.mapM (entityMessages isEmpty) with
              | none => rw [h1, h2] at hr; simp at hr
              | some w => exact ih w h2 hy
      exact key _ l hl ha
    have hex : ∀ Q : Meta → Prop, (∃ a ∈ ps.flatMap (·.accessPoints), Q a) ↔ ∃ p ∈ ps, ∃ a ∈ p.accessPoints, Q a := by
      intro Q
      simp only [List.mem_flatMap]
      constructor
      · rintro ⟨a, ⟨p, hp, ha⟩, hq⟩; exact ⟨p, hp, a, ha, hq⟩
      · rintro ⟨p, hp, a, ha, hq⟩; exact ⟨a, ⟨p, hp, ha⟩, hq⟩
    constructor
    · rw [List.mem_filter, hmem, ← hex]
      simp only [decide_eq_true_eq]
      constructor
      · rintro ⟨⟨a, ha, as, has, hm | hm⟩, hc⟩
        · obtain ⟨act, hact, hm⟩ := hm
          obtain ⟨t, ht, hta⟩ := (mapM_mem has act).1 hact
          exact ⟨a, ha, t, ht, act, hta, (upstreamOf_mem _ _ _ _).1 hm⟩
        · obtain ⟨act, hact, hm⟩ := hm
          have := ((downstreamOf_mem _ _ _).1 hm).2.1
          rw [this] at hc; exact absurd hc (by simp)
      · rintro ⟨a, ha, t, ht, act, hta, hm⟩
        obtain ⟨as, has⟩ := hall a ha
        exact ⟨⟨a, ha, as, has, .inl ⟨act, (mapM_mem has act).2 ⟨t, ht, hta⟩, (upstreamOf_mem _ _ _ _).2 hm⟩⟩, hm.2.1⟩
    · rw [List.mem_filter, hmem, ← hex]
      simp only [Function.comp, Bool.not_eq_true', decide_eq_false_iff_not]
      constructor
      · rintro ⟨⟨a, ha, as, has, hm | hm⟩, hc⟩
        · obtain ⟨act, hact, hm⟩ := hm
          exact absurd ((upstreamOf_mem _ _ _ _).1 hm).2.1 hc
        · obtain ⟨act, hact, hm⟩ := hm
          obtain ⟨t, ht, hta⟩ := (mapM_mem has act).1 hact
          exact ⟨a, ha, t, ht, act, hta, (downstreamOf_mem _ _ _).1 hm⟩
      · rintro ⟨a, ha, t, ht, act, hta, hm⟩
        obtain ⟨as, has⟩ := hall a ha
        refine ⟨⟨a, ha, as, has, .inr ⟨act, (mapM_mem has act).2 ⟨t, ht, hta⟩, (downstreamOf_mem _ _ _).2 hm⟩⟩, ?_⟩
        rw [hm.2.1]; simp

theorem actionOf_inj {t t' : Tag} {a : Message.Action} (h : actionOf t = some a) (h' : actionOf t' = some a) : t = t' := by
  cases t <;> cases t' <;> cases a <;> simp_all [actionOf]

theorem mapM_nodup : {l : List Tag} → {r : List Message.Action} → l.mapM actionOf = some r → l.Nodup → r.Nodup
  | [], r, h, _ => by simp at h; subst h; simp
  | a :: l, r, h, hn => by
    rw [List.mapM_cons] at h
    cases h1 : actionOf a with
    | none => rw [h1] at h; simp at h
    | some x =>
      rw [h1] at h
      cases h2 : l.mapM actionOf with
      | none => rw [h2] at h; simp at h
      | some y =>
        rw [h2] at h
        simp only [Option.pure_def, Option.bind_eq_bind, Option.bind_some, Option.some.injEq] at h
        subst h
        have hn := List.nodup_cons.1 hn
        refine List.nodup_cons.2 ⟨?_, mapM_nodup h2 hn.2⟩
        intro hx
        obtain ⟨b, hb, hbx⟩ := (mapM_mem h2 x).1 hx
        exact hn.1 (actionOf_inj h1 hbx ▸ hb)

theorem entityMessages_nodup (isEmpty : Ty → Bool) (a : Meta) (l : List MsgType) (h : entityMessages isEmpty a = some l)
    (hn : a.actions.Nodup) : l.Nodup ∧ ∀ m ∈ l, m.path = a.path := by
  unfold entityMessages at h
  split at h
  · simp at h
  · rename_i as has
    simp only [Option.some.injEq] at h
    subst h
    have hu := mapM_nodup has hn
    have hup : (as.flatMap (upstreamOf isEmpty a)).Nodup := by
      unfold List.Nodup
      rw [List.pairwise_flatMap]
      refine ⟨fun act _ => by cases act <;> simp [upstreamOf], ?_⟩
      refine List.Pairwise.imp ?_ hu
      intro x y hxy m hm m' hm' he
      subst he
      exact hxy (((upstreamOf_mem _ _ _ _).1 hm).2.2.1.symm.trans ((upstreamOf_mem _ _ _ _).1 hm').2.2.1)
    have hdown : (as.flatMap (downstreamOf a)).Nodup := by
      unfold List.Nodup
      rw [List.pairwise_flatMap]
      refine ⟨fun act _ => by cases act <;> simp [downstreamOf], ?_⟩
      refine List.Pairwise.imp ?_ hu
      intro x y hxy m hm m' hm' he
      subst he
      exact hxy (((downstreamOf_mem _ _ _).1 hm).2.2.1.symm.trans ((downstreamOf_mem _ _ _).1 hm').2.2.1)
    constructor
    · rw [List.nodup_append]
      refine ⟨hup, hdown, ?_⟩
      intro m hm m' hm' he
      subst he
      obtain ⟨x, -, hx⟩ := List.mem_flatMap.1 hm
      obtain ⟨y, -, hy⟩ := List.mem_flatMap.1 hm'
      have h1 := ((upstreamOf_mem _ _ _ _).1 hx).2.1
      have h2 := ((downstreamOf_mem _ _ _).1 hy).2.1
      rw [h1] at h2; exact absurd h2 (by simp)
    · intro m hm
      rcases List.mem_append.1 hm with hm | hm
      · obtain ⟨x, -, hx⟩ := List.mem_flatMap.1 hm
        exact ((upstreamOf_mem _ _ _ _).1 hx).1
      · obtain ⟨x, -, hx⟩ := List.mem_flatMap.1 hm
        exact ((downstreamOf_mem _ _ _).1 hx).1

theorem allMessages_nodup (isEmpty : Ty → Bool) : (aps : List Meta) → (l : List (List MsgType)) →
    aps.mapM (entityMessages isEmpty) = some l → (aps.map (·.path)).Nodup → (∀ a ∈ aps, a.actions.Nodup) →
    l.flatten.Nodup ∧ ∀ m ∈ l.flatten, m.path ∈ aps.map (·.path)
  | [], l, h, _, _ => by simp at h; subst h; simp
  | a :: aps, l, h, hp, ha => by
    rw [List.mapM_cons] at h
    cases h1 : entityMessages isEmpty a with
    | none => rw [h1] at h; simp at h
    | some x =>
      rw [h1] at h
      cases h2 : aps.mapM (entityMessages isEmpty) with
      | none => rw [h2] at h; simp at h
      | some y =>
        rw [h2] at h
        simp only [Option.pure_def, Option.bind_eq_bind, Option.bind_some, Option.some.injEq] at h
        subst h
        rw [List.map_cons, List.nodup_cons] at hp
        obtain ⟨i1, i2⟩ := allMessages_nodup isEmpty aps y h2 hp.2 fun b hb => ha b (by simp [hb])
        obtain ⟨e1, e2⟩ := entityMessages_nodup isEmpty a x h1 (ha a (by simp))
        rw [List.flatten_cons]
        constructor
        · rw [List.nodup_append]
          refine ⟨e1, i1, ?_⟩
          intro m hm m' hm' he
          subst he
          exact hp.1 (e2 m hm ▸ i2 m hm')
        · intro m hm
          rcases List.mem_append.1 hm with hm | hm
          · simp [e2 m hm]
          · exact List.mem_cons_of_mem _ (i2 m hm)

/-- C66: in a context that compiles all message types are different (as long as no action is written twice), so
the type of a message determines its number. -/
theorem message_types_distinct (isEmpty : Ty → Bool) (d : Node) (cm : ContextMeta) (h : contextMeta isEmpty d = some cm)
    (ha : ∀ ps, enumerateProducers d = some ps → ∀ p ∈ ps, ∀ a ∈ p.accessPoints, a.actions.Nodup) :
    cm.upstream.Nodup ∧ cm.downstream.Nodup := by
  unfold contextMeta at h
  split at h
  · simp at h
  · split at h
    · rename_i ps cs hps hcs
      split at h
      · rename_i st api hst hapi
        simp only [Option.some.injEq] at h
        subst h
        unfold storeMap at hst
        split at hst
        · rename_i hn
          unfold messageApi at hapi
          split at hapi
          · simp at hapi
          · rename_i l hl
            simp only [Option.some.injEq] at hapi
            rw [List.partition_eq_filter_filter] at hapi
            subst hapi
            have hnd := (allMessages_nodup isEmpty _ l hl hn (by
              intro a hm
              obtain ⟨p, hp, hap⟩ := List.mem_flatMap.1 hm
              exact ha ps hps p hp a hap)).1
            exact ⟨hnd.filter _, hnd.filter _⟩
        · simp at hst
      · simp at h
    · simp at h

example : (contextMeta (fun _ => false) sampleContext).map (fun c => (c.upstream.length, c.downstream.length))
    = some (4, 5) := by rfl

end Nbdl.Def
