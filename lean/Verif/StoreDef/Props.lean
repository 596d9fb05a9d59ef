import Verif.StoreDef.Run
/-!
# Store definitions: the properties
-/
namespace Nbdl.StoreDef
open Nbdl.Dsl

/-! ### The class is what the definition describes (C77, C78) -/

theorem implements_members (d : Def) (h : ∀ e ∈ d.elems, memberAccepted d.params e = true) (hn : ':' ∉ d.name) :
    Implements d (astClass (getName d.name) d.params (d.elems.map toItem)) where
  name := getName_plain d.name hn
  params := by
    refine ⟨by simp [astClass], ?_, ?_⟩
    · rw [show (astClass (getName d.name) d.params (d.elems.map toItem)).params
        = (List.range d.params).map paramName from rfl, List.nodup_iff_pairwise_ne, List.pairwise_map]
      exact List.nodup_range.imp fun hne he => hne (paramName_inj he)
    · simp [astClass, paramName_identifier]
  members := by
    refine ⟨by simp [astClass, astMembers_length], fun j k t es hj => ?_⟩
    obtain ⟨m, h1, h2, h3, h4⟩ := astMembers_getElem d.params (d.elems.map toItem) j ⟨k, t, es.map argVal⟩
      (by simp [List.getElem?_map, hj, toItem])
    exact ⟨m, h1, h2, by simpa using h3, h4⟩
  names := by
    intro h1 h2
    have hg := givenOf_elems d.params d.elems h
    exact (astMembers_names d.params (d.elems.map toItem) (by rw [hg]; exact h1)
      (fun i hi => h2 i (by rw [hg] at hi; exact hi))).1
  constructs := by
    intro V w args hl hs orders ho
    exact construct_described w d.params args hl d.elems h hs d.params [] (by simp) orders ho
  forwards := fun pre m post l x f r hm hi => forwarded_iff d.params (d.elems.map toItem) pre post m l r x f hm hi

/-- A definition of one or more members, each with a key and a store with a type and arguments, gives the text of a
class that implements it. -/
theorem store_implements (d : Def) (hne : d.elems ≠ []) (h : ∀ e ∈ d.elems, memberAccepted d.params e = true)
    (hn : ':' ∉ d.name) : ∃ c : CClass, compileStore d = .ok c.text ∧ Implements d c := by
  refine ⟨_, ?_, implements_members d h hn⟩
  have hb := buildElems_members d.params d.elems h .unit
  simp only [compileStore, build, hb]
  exact writeStore_members d.name d.params .unit rfl (fun _ => rfl) d.elems hne h

/-- The part of it about moving, in words of its own: when the constructor runs, with the arguments of every
initialiser evaluated in any order, no argument is used after it was moved from, and every member gets the objects
described. -/
theorem store_no_use_after_move (d : Def) (hne : d.elems ≠ []) (h : ∀ e ∈ d.elems, memberAccepted d.params e = true)
    (hn : ':' ∉ d.name) (hs : d.stringsOk) : ∃ c : CClass, compileStore d = .ok c.text ∧
      (∀ {V : Type} (w : Consts V) (args : List V), args.length = d.params → ∀ orders, Orders c.members orders →
        ∃ r, construct w (bindParams c.params args) [] c.members orders = some r ∧
          described w args d.elems = some (r.map (·.2))) ∧
      ∀ pre m post l x f r, c.members = pre ++ m :: post → m.init = l ++ .name x f :: r →
        (f = true ↔ (∀ a ∈ l ++ r, a.mentions x = false) ∧ ∀ n ∈ post, ∀ a ∈ n.init, a.mentions x = false) := by
  obtain ⟨c, h1, h2⟩ := store_implements d hne h hn
  refine ⟨c, h1, fun w args hl orders ho => ?_, h2.forwards⟩
  obtain ⟨r, hr, hd, -⟩ := h2.constructs w args hl hs orders ho
  exact ⟨r, hr, hd⟩

/-- A definition with nothing in it gives an empty struct. -/
theorem store_tag (name : Text) (params : Nat) (hn : ':' ∉ name) :
    compileStore ⟨name, params, []⟩ = .ok (tx "struct " ++ lastComponent name ++ tx " { };\n") := by
  simp [compileStore, build, buildElems, writeStore, getName_plain name hn]

/-- The example: two parameters; the first is used by two members, the second twice by one of them. -/
def sample : Def where
  name := tx "my_store"
  params := 2
  elems := [.compose (.member (tx "foo")) (.store (tx "Foo") [.var 0, .num 5]),
    .compose (.text (tx "key_type")) (.store (tx "Bar") [.var 1, .var 1]),
    .compose (.param 1) (.store (tx "Baz") [.str (tx "x"), .var 0])]

example : compileStore sample = .ok (tx "class my_store {\npublic:\nFoo foo;\nBar anon_2;\nBaz anon_3;\nmy_store() = default;\nexplicit my_store(auto&& arg_0, auto&& arg_1) \n: foo(arg_0, 5), anon_2(arg_1, arg_1), anon_3(\"x\", static_cast<decltype(arg_0)>(arg_0))\n{ }\n};\n") := by
  decide +kernel

example : sample.elems ≠ [] ∧ (∀ e ∈ sample.elems, memberAccepted sample.params e = true) ∧ ':' ∉ sample.name := by
  refine ⟨by simp [sample], ?_, by decide⟩
  intro e he
  simp only [sample, List.mem_cons, List.not_mem_nil, or_false] at he
  rcases he with rfl | rfl | rfl <;> decide

/-- A forwarded argument that is used again is a failure in the specification. -/
example : construct (V := Nat) ⟨fun _ => 0, fun _ => 0⟩ (bindParams [['a']] [7]) []
    [⟨['T'], ['x'], [.name ['a'] true]⟩, ⟨['T'], ['y'], [.name ['a'] false]⟩]
    [[.name ['a'] true], [.name ['a'] false]] = none := by decide +kernel

/-! ### What is accepted (C78) -/

theorem buildStore_shape (params : Nat) (s : Store) (v : SVal) (h : buildStore params s = some v) :
    (∃ ty as, v = .store ty as) ∨ (∃ as, v = .variant as) ∨
      ∃ i, v = .param i ∧ s = .param i ∧ i < params := by
  cases s with
  | store t es =>
    simp only [buildStore, Option.map_eq_some_iff] at h
    obtain ⟨as, -, rfl⟩ := h
    exact .inl ⟨_, _, rfl⟩
  | variant s ss =>
    simp only [buildStore] at h
    split at h
    · simp at h
    · split at h
      · simp at h
      · simp at h; exact .inr (.inl ⟨_, h.symm⟩)
  | param i =>
    simp only [buildStore] at h
    split at h
    · rename_i hi; simp at h; exact .inr (.inr ⟨i, h.symm, rfl, hi⟩)
    · simp at h

theorem buildElems_compose (params : Nat) (es : List Elem) (k : Key) (l r v : SVal)
    (h : buildElems params (.compose k l r) es = some v) : ∃ k' l' r', v = .compose k' l' r' := by
  induction es generalizing k l r with
  | nil => simp [buildElems] at h; exact ⟨k, l, r, h.symm⟩
  | cons e es ih =>
    match e with
    | .single s =>
      simp only [buildElems, SVal.isUnit] at h
      split at h <;> simp at h
    | .compose q s =>
      simp only [buildElems] at h
      split at h
      · simp at h
      · split at h
        · simp at h
        · exact ih _ _ _ h

theorem compile_single (name : Text) (params : Nat) (s : Store) :
    (∃ t, compileStore ⟨name, params, [.single s]⟩ = .ok t) ↔ s.typed params = true := by
  constructor
  · rintro ⟨t, h⟩
    simp only [compileStore, build, buildElems] at h
    cases hs : buildStore params s with
    | none => simp [hs] at h
    | some v =>
      have ht := visitType_typed params s v hs
      rw [← ht]
      simp only [hs, SVal.isUnit, if_true] at h
      rcases buildStore_shape params s v hs with ⟨ty, as, rfl⟩ | ⟨as, rfl⟩ | ⟨i, rfl, -, -⟩
      · rfl
      · simp only [writeStore, createStrongAlias] at h
        cases hv : visitType (.variant as) with
        | none => simp [hv] at h
        | some t => rfl
      · simp [writeStore] at h
  · intro ht
    have hb := buildStore_typed params s ht
    cases hs : buildStore params s with
    | none => simp [hs] at hb
    | some v =>
      have hv := visitType_typed params s v hs
      rw [ht] at hv
      obtain ⟨t, hv⟩ := Option.isSome_iff_exists.1 hv
      simp only [compileStore, build, buildElems, hs, SVal.isUnit, if_true]
      rcases buildStore_shape params s v hs with ⟨ty, as, rfl⟩ | ⟨as, rfl⟩ | ⟨i, rfl, -, -⟩
      · exact ⟨_, rfl⟩
      · simp only [writeStore, createStrongAlias, hv]
        exact ⟨_, rfl⟩
      · simp [visitType] at hv

mutual
theorem visitType_cpp (params : Nat) : ∀ (s : Store) (v : SVal), s.typed params = true →
    buildStore params s = some v → visitType v = some s.cppType
  | .store t es, v, _, h => by
    simp only [buildStore, Option.map_eq_some_iff] at h
    obtain ⟨as, -, rfl⟩ := h
    rfl
  | .param i, v, ht, _ => by simp [Store.typed] at ht
  | .variant s ss, v, ht, h => by
    simp only [Store.typed, Bool.and_eq_true] at ht
    simp only [buildStore] at h
    cases hu : buildStore params s with
    | none => simp [hu] at h
    | some u =>
      cases hus : buildStores params ss with
      | none => simp [hu, hus] at h
      | some us =>
        simp [hu, hus] at h
        subst h
        simp only [visitType, visitTypes, visitType_cpp params s u ht.1 hu, visitTypes_cpp params ss us ht.2 hus,
          Option.map_some, commas_separated, Store.cppType, List.append_assoc]
theorem visitTypes_cpp (params : Nat) : ∀ (ss : List Store) (vs : List SVal), typedAll params ss = true →
    buildStores params ss = some vs → visitTypes vs = some (cppTypes ss)
  | [], vs, _, h => by simp [buildStores] at h; subst h; rfl
  | s :: ss, vs, ht, h => by
    simp only [typedAll, Bool.and_eq_true] at ht
    simp only [buildStores] at h
    cases hu : buildStore params s with
    | none => simp [hu] at h
    | some u =>
      cases hus : buildStores params ss with
      | none => simp [hu, hus] at h
      | some us =>
        simp [hu, hus] at h
        subst h
        simp only [visitTypes, visitType_cpp params s u ht.1 hu, visitTypes_cpp params ss us ht.2 hus, cppTypes]
end

/-- A definition of one store, or of a choice of stores, gives the type under the name of the definition: the type of
the store, or the holder of all the alternatives in order. -/
theorem store_single_exact (name : Text) (params : Nat) (s : Store) (h : s.typed params = true) (hn : ':' ∉ name) :
    compileStore ⟨name, params, [.single s]⟩ = .ok (aliasText (lastComponent name) s.cppType) := by
  have hb := buildStore_typed params s h
  cases hs : buildStore params s with
  | none => simp [hs] at hb
  | some v =>
    have hv := visitType_cpp params s v h hs
    simp only [compileStore, build, buildElems, hs, SVal.isUnit, if_true]
    rcases buildStore_shape params s v hs with ⟨ty, as, rfl⟩ | ⟨as, rfl⟩ | ⟨i, rfl, -, -⟩
    · simp only [writeStore, createStrongAlias, hv, getName_plain name hn, aliasText]
      simp [tx]
    · simp only [writeStore, createStrongAlias, hv, getName_plain name hn, aliasText]
      simp [tx]
    · simp [visitType] at hv

example : (Store.variant (.store (tx "A") [.num 1]) [.store (tx "B") [], .store (tx "C") [.var 0]]).typed 1 = true ∧
    compileStore ⟨tx "s", 1, [.single (.variant (.store (tx "A") [.num 1])
      [.store (tx "B") [], .store (tx "C") [.var 0]])]⟩ =
    .ok (tx "class s : public nbdl::strong_alias<::nbdl::variant_holder<A, B, C>> {\npublic:\nusing Base = nbdl::strong_alias<::nbdl::variant_holder<A, B, C>>;\nusing Base::Base;\nusing Base::operator=;\n};\n") := by
  decide +kernel

/-- A base parameter leaves no trace. -/
theorem compile_base (name : Text) (params i : Nat) (hi : i < params) (es : List Elem) (hne : es ≠ [])
    (h : ∀ e ∈ es, memberAccepted params e = true) :
    compileStore ⟨name, params, .single (.param i) :: es⟩ = compileStore ⟨name, params, es⟩ := by
  simp only [compileStore, build, buildElems, buildStore, hi, if_true, SVal.isUnit]
  rw [buildElems_members params es h, buildElems_members params es h]
  simp only
  rw [writeStore_members name params (.param i) rfl (fun _ => rfl) es hne h,
    writeStore_members name params .unit rfl (fun _ => rfl) es hne h]

/-- There is a class exactly for the definitions that are accepted; all others are refused with an error, or are
undefined behaviour. -/
theorem store_accepted_iff (d : Def) : (∃ t, compileStore d = .ok t) ↔ d.accepted = true := by
  rcases d with ⟨name, params, es⟩
  have members : ∀ es, es ≠ [] → (∀ e ∈ es, memberAccepted params e = true) →
      ∃ t, compileStore ⟨name, params, es⟩ = .ok t := by
    intro es hne h
    simp only [compileStore, build, buildElems_members params es h]
    exact ⟨_, writeStore_members name params .unit rfl (fun _ => rfl) es hne h⟩
  match es with
  | [] => simp [Def.accepted, compileStore, build, buildElems, writeStore]
  | [.single s] => rw [compile_single]; rfl
  | .compose k s :: es =>
    rw [show Def.accepted ⟨name, params, .compose k s :: es⟩
      = (Elem.compose k s :: es).all (memberAccepted params) from rfl, List.all_eq_true]
    refine ⟨?_, members _ (by simp)⟩
    rintro ⟨t, h⟩
    simp only [compileStore, build, buildElems] at h
    cases hk : buildKey params k with
    | none => simp [hk] at h
    | some k' =>
      cases hs : buildStore params s with
      | none => simp [hk, hs] at h
      | some u =>
        simp only [hk, hs] at h
        cases hv : buildElems params (.compose k' u .unit) es with
        | none => simp [hv] at h
        | some v =>
          simp only [hv] at h
          obtain ⟨a, b, c, rfl⟩ := buildElems_compose params es _ _ _ v hv
          obtain ⟨-, h2⟩ := createClass_ok _ _ _ _ h
          obtain ⟨h3, -, above, h4⟩ := buildElems_ok params es _ _ rfl hv [] h2
          obtain ⟨⟨ty, as, hl⟩, hne⟩ := h4 ⟨k', u, above⟩ (by simp [entries])
          simp only at hl hne
          subst hl
          obtain ⟨as', rfl, has⟩ := buildStore_store params s ty as hs
          obtain ⟨-, hka⟩ := buildKey_some params k k' hk hne
          intro x hx
          rcases List.mem_cons.1 hx with rfl | hx
          · simp only [memberAccepted, hka, has, Bool.and_self]
          · exact h3 x hx
  | .single s :: e :: es =>
    constructor
    · rintro ⟨t, h⟩
      simp only [compileStore, build] at h
      cases hv : buildElems params .unit (.single s :: e :: es) with
      | none => simp [hv] at h
      | some v =>
        simp only [hv] at h
        rw [buildElems] at hv
        cases hs : buildStore params s with
        | none => simp [hs] at hv
        | some u =>
          simp only [hs, SVal.isUnit, if_true] at hv
          have hu : u.isUnit = false := by
            rcases buildStore_shape params s u hs with ⟨ty, as, rfl⟩ | ⟨as, rfl⟩ | ⟨i, rfl, -, -⟩ <;> rfl
          have hc : ∃ a b c, v = .compose a b c := by
            match e with
            | .single s' =>
              simp only [buildElems, hu] at hv
              split at hv <;> simp at hv
            | .compose k s' =>
              simp only [buildElems] at hv
              split at hv
              · simp at hv
              · split at hv
                · simp at hv
                · exact buildElems_compose _ _ _ _ _ _ hv
          obtain ⟨a, b, c, rfl⟩ := hc
          obtain ⟨h1, h2⟩ := createClass_ok _ _ _ _ h
          obtain ⟨h3, h4, -⟩ := buildElems_ok params (e :: es) _ _ hu hv [] h2
          rw [h1] at h4
          rcases buildStore_shape params s u hs with ⟨ty, as, rfl⟩ | ⟨as, rfl⟩ | ⟨i, rfl, rfl, hi⟩
          · simp [baseOk] at h4
          · simp [baseOk] at h4
          · simpa [Def.accepted, hi] using h3
    · intro h
      match s with
      | .param i =>
        have h : i < params ∧ ∀ x ∈ e :: es, memberAccepted params x = true := by
          simpa [Def.accepted] using h
        rw [compile_base name params i h.1 (e :: es) (by simp) h.2]
        exact members _ (by simp) h.2
      | .store t as => simp [Def.accepted, memberAccepted] at h
      | .variant t as => simp [Def.accepted, memberAccepted] at h

example : sample.accepted = true := by decide
example : Def.accepted ⟨tx "s", 0, [.single (.variant (.store (tx "A") []) [.store (tx "B") []])]⟩ = true := by decide
example : Def.accepted ⟨tx "s", 0, [.compose (.member (tx "m")) (.variant (.store (tx "A") []) [])]⟩ = false := by decide
example : Def.accepted ⟨tx "s", 0, [.single (.store (tx "A") []), .compose (.member (tx "m")) (.store (tx "B") [])]⟩ =
  false := by decide

/-! ### What goes wrong (C78) -/

/-- The arguments of a store that stands on its own are dropped: the text does not depend on them. -/
theorem store_single_args_violated (name type : Text) (params : Nat) (es : List Expr)
    (h : es.all (argAccepted params) = true) :
    compileStore ⟨name, params, [.single (.store type es)]⟩ = compileStore ⟨name, params, [.single (.store type [])]⟩ := by
  simp [compileStore, build, buildElems, buildStore, buildArgs_eq, h, writeStore, createStrongAlias, visitType,
    SVal.isUnit]

example : [Expr.num 5, .var 0].all (argAccepted 1) = true := by decide

/-- A base parameter followed by members is dropped: the class does not hold it. -/
theorem store_base_violated (name : Text) (params i : Nat) (hi : i < params) (es : List Elem) (hne : es ≠ [])
    (h : ∀ e ∈ es, memberAccepted params e = true) :
    compileStore ⟨name, params, .single (.param i) :: es⟩ = compileStore ⟨name, params, es⟩ :=
  compile_base name params i hi es hne h

example : compileStore ⟨tx "s", 1, [.single (.param 0), .compose (.member (tx "m")) (.store (tx "A") [])]⟩ =
    .ok (tx "class s {\npublic:\nA m;\ns() = default;\nexplicit s(auto&& arg_0) \n: m()\n{ }\n};\n") := by decide +kernel

/-- A parameter as the store is undefined behaviour. -/
theorem store_param_violated (name : Text) (params i : Nat) (hi : i < params) :
    compileStore ⟨name, params, [.single (.param i)]⟩ = .ub := by
  simp [compileStore, build, buildElems, buildStore, hi, writeStore, SVal.isUnit]

/-- A variant as a later member can be undefined behaviour: the search for later uses of an argument does not know
it. -/
theorem store_variant_member_violated :
    compileStore ⟨tx "s", 1, [.compose (.member (tx "a")) (.store (tx "A") [.var 0]),
      .compose (.member (tx "b")) (.variant (.store (tx "B") [.var 0]) [])]⟩ = .ub := by decide +kernel

/-! ### The name of the class (C78) -/

theorem idxOf?_takeWhile (r : Text) (h : ':' ∈ r) : r.idxOf? ':' = some (r.takeWhile (· ≠ ':')).length := by
  induction r with
  | nil => simp at h
  | cons c r ih =>
    by_cases hc : c = ':'
    · subst hc; simp [List.idxOf?_cons]
    · have : ':' ∈ r := by
        rcases List.mem_cons.1 h with h | h
        · exact absurd h.symm hc
        · exact h
      simp [List.idxOf?_cons, hc, ih this]

/-- The class is called by the last component of the name exactly if there is no namespace, or if what comes before
the last colon is as long as the last component. -/
theorem store_name_iff (s : Text) :
    getName s = lastComponent s ↔ ':' ∉ s ∨ s.length = 2 * (lastComponent s).length + 1 := by
  by_cases h : ':' ∈ s
  · have hi := idxOf?_takeWhile s.reverse (by simpa using h)
    have hlt : (s.reverse.takeWhile (· ≠ ':')).length < s.length := by
      refine Nat.lt_of_le_of_ne ?_ fun he => ?_
      · simpa using (List.takeWhile_prefix (p := (· ≠ ':')) (l := s.reverse)).length_le
      · have h1 := (List.takeWhile_prefix (p := (· ≠ ':')) (l := s.reverse)).eq_of_length (by simpa using he)
        have h2 : ':' ∈ s.reverse.takeWhile (· ≠ ':') := by rw [h1]; simpa using h
        have h3 := List.all_eq_true.1 (List.all_takeWhile (p := (· ≠ ':')) (l := s.reverse)) ':' h2
        simp at h3
    have hlen : (lastComponent s).length = (s.reverse.takeWhile (· ≠ ':')).length := by simp [lastComponent]
    have hsuf : lastComponent s = s.drop (s.length - (lastComponent s).length) := by
      have h1 : (s.reverse.takeWhile (· ≠ ':')) <+: s.reverse := List.takeWhile_prefix _
      have h2 : lastComponent s <:+ s := by
        have := List.reverse_suffix.2 h1
        rwa [List.reverse_reverse] at this
      exact List.suffix_iff_eq_drop.1 h2
    have hget : getName s = s.drop (s.length - (s.length - 1 - (lastComponent s).length)) := by
      simp only [getName, rfind, hi, takeBack, hlen]
    simp only [h, not_true_eq_false, false_or]
    constructor
    · intro he
      have := congrArg List.length he
      rw [hget, List.length_drop] at this
      omega
    · intro he
      rw [hget]
      conv => rhs; rw [hsuf]
      congr 1
      omega
  · simp [h, getName_plain s h]

example : getName (tx "app:foo") = tx "foo" := by decide

/-- A store defined in a namespace has the wrong name. -/
theorem store_name_violated : getName (tx "app::store") = tx "tore" ∧ getName (tx "my_app::st") = tx "app::st" := by
  decide

end Nbdl.StoreDef
