import Verif.Entity.Spec
/-!
# C143: an entity is its declared members
-/
namespace Nbdl.Entity
variable {P : Type}

private theorem members_names (p : Prog) (c : Cls) : ∀ (ns : List Name) {ms : List Member}, members p c ns = some ms →
    ms.map (·.name) = ns ∧ ∀ m ∈ ms, member p c m.name = some m
  | [], ms, h => by cases h; simp
  | n :: ns, ms, h => by
    rw [members] at h
    cases e1 : member p c n with
    | none => rw [e1] at h; cases h
    | some m =>
      cases e2 : members p c ns with
      | none => rw [e1, e2] at h; cases h
      | some ms' =>
        rw [e1, e2] at h
        cases h
        obtain ⟨h1, h2⟩ := members_names p c ns e2
        have hm : m.name = n := by
          unfold member at e1
          cases e3 : (p.line c).find? fun d => decide (n ∈ p.own d) with
          | none => rw [e3] at e1; cases e1
          | some d => rw [e3] at e1; cases e1; rfl
        refine ⟨by simp [h1, hm], fun k hk => ?_⟩
        rcases List.mem_cons.1 hk with hk | hk
        · subst hk; rw [hm]; exact e1
        · exact h2 k hk

private theorem expand_at (p : Prog) : ∀ (ds : List (Cls × List Name)) {e : Env}, expand p ds = some e →
    e.map (·.1) = ds.map (·.1) ∧ ∀ c ms, (c, ms) ∈ e → ∃ ns, (c, ns) ∈ ds ∧ members p c ns = some ms
  | [], e, h => by cases h; simp
  | (c, ns) :: ds, e, h => by
    rw [expand] at h
    cases e1 : members p c ns with
    | none => rw [e1] at h; cases h
    | some ms =>
      cases e2 : expand p ds with
      | none => rw [e1, e2] at h; cases h
      | some e' =>
        rw [e1, e2] at h
        cases h
        obtain ⟨h1, h2⟩ := expand_at p ds e2
        refine ⟨by simp [h1], fun d k hk => ?_⟩
        rcases List.mem_cons.1 hk with hk | hk
        · cases hk
          exact ⟨ns, by simp, e1⟩
        · obtain ⟨ns', a, b⟩ := h2 d k hk
          exact ⟨ns', by simp [a], b⟩

private theorem compile_expand {p : Prog} {e : Env} (h : compile p = some e) :
    expand p p.decls = some e ∧ (e.map (·.1)).Nodup ∧ (e.map (·.2)).flatten.Nodup := by
  unfold compile at h
  cases e1 : expand p p.decls with
  | none => rw [e1] at h; cases h
  | some e' =>
    rw [e1] at h
    by_cases hn : (e'.map (·.1)).Nodup ∧ (e'.map (·.2)).flatten.Nodup
    · simp only [hn, and_self, if_true] at h
      cases h
      exact ⟨rfl, hn⟩
    · simp only [hn, if_false] at h
      cases h

private theorem lookup_mem : ∀ {e : Env} {c : Cls} {ms : List Member}, (e.map (·.1)).Nodup →
    (e.lookup c = some ms ↔ (c, ms) ∈ e)
  | [], c, ms, _ => by simp
  | (d, ks) :: e, c, ms, hn => by
    rw [List.lookup_cons]
    by_cases hd : c = d
    · subst hd
      simp only [beq_self_eq_true, List.mem_cons, Prod.mk.injEq, true_and]
      constructor
      · intro h; cases h; exact .inl rfl
      · rintro (h | h)
        · rw [h]
        · have := List.nodup_cons.1 hn
          exact absurd (List.mem_map.2 ⟨_, h, rfl⟩) this.1
    · have : (c == d) = false := by simpa using hd
      simp only [this, List.mem_cons, Prod.mk.injEq, hd, false_and, false_or]
      exact lookup_mem (List.nodup_cons.1 hn).2

/-- C143: in a program that compiles, each entity has the members it was declared with, in that order, and each is the
field that the class has under this name. -/
theorem declared_members (p : Prog) (e : Env) (h : compile p = some e) (c : Cls) (ns : List Name) (hd : (c, ns) ∈ p.decls) :
    ∃ ms, membersOf e c = some ms ∧ ms.map (·.name) = ns ∧ ∀ m ∈ ms, member p c m.name = some m := by
  obtain ⟨he, h1, _⟩ := compile_expand h
  obtain ⟨hk, hm⟩ := expand_at p _ he
  have hc : c ∈ e.map (·.1) := by rw [hk]; exact List.mem_map.2 ⟨_, hd, rfl⟩
  obtain ⟨⟨c', ms⟩, hmem, hcc⟩ := List.mem_map.1 hc
  cases hcc
  obtain ⟨ns', hd', hms⟩ := hm _ ms hmem
  have hnd : (p.decls.map (·.1)).Nodup := by rw [← hk]; exact h1
  have : ns' = ns := by
    have key : ∀ (l : List (Cls × List Name)), (l.map (·.1)).Nodup → ∀ {a b : List Name} {c : Cls}, (c, a) ∈ l → (c, b) ∈ l →
        a = b := by
      intro l
      induction l with
      | nil => intro _ a b c ha; simp at ha
      | cons x l ih =>
        intro hn a b c ha hb
        have hn' := List.nodup_cons.1 hn
        rcases List.mem_cons.1 ha with xa | xa <;> rcases List.mem_cons.1 hb with xb | xb
        · rw [← xa] at xb; exact (Prod.mk.inj xb).2.symm
        · subst xa; exact absurd (List.mem_map.2 ⟨(c, b), xb, rfl⟩ : c ∈ l.map (·.1)) hn'.1
        · subst xb; exact absurd (List.mem_map.2 ⟨(c, a), xa, rfl⟩ : c ∈ l.map (·.1)) hn'.1
        · exact ih hn'.2 xa xb
    exact key _ hnd hd' hd
  subst this
  exact ⟨ms, (lookup_mem h1).2 hmem, members_names p _ ns' hms⟩

private theorem find_name : ∀ {ms : List Member} {m : Member}, (ms.map (·.name)).Nodup → m ∈ ms →
    (ms.find? fun k => decide (k.name = m.name)) = some m
  | k :: ms, m, hn, hm => by
    have hn' := List.nodup_cons.1 hn
    rw [List.find?_cons]
    rcases List.mem_cons.1 hm with h | h
    · subst h; simp
    · have : ¬ k.name = m.name := fun hk => hn'.1 (List.mem_map.2 ⟨m, h, hk.symm⟩)
      simp only [this, decide_false]
      exact find_name hn'.2 h

private theorem nodup_flatten {α : Type} : ∀ {l : List (List α)}, l.flatten.Nodup → ∀ x ∈ l, x.Nodup
  | [], _, x, hx => by simp at hx
  | a :: l, h, x, hx => by
    rw [List.flatten_cons, List.nodup_append] at h
    rcases List.mem_cons.1 hx with hx | hx
    · subst hx; exact h.1
    · exact nodup_flatten h.2.1 x hx

private theorem names_nodup {p : Prog} {c : Cls} : ∀ {ms : List Member}, (∀ m ∈ ms, member p c m.name = some m) →
    ms.Nodup → (ms.map (·.name)).Nodup
  | [], _, _ => by simp
  | m :: ms, h, hn => by
    have hn' := List.nodup_cons.1 hn
    rw [List.map_cons, List.nodup_cons]
    refine ⟨fun hm => ?_, names_nodup (fun k hk => h k (by simp [hk])) hn'.2⟩
    obtain ⟨k, hk, hkm⟩ := List.mem_map.1 hm
    have h1 := h m (by simp)
    have h2 := h k (by simp [hk])
    rw [hkm, h1] at h2
    cases h2
    exact hn'.1 hk

/-- C143: a name leads to the field of the class with that name if it is declared, and to none otherwise. -/
theorem by_name_exact (p : Prog) (e : Env) (h : compile p = some e) (c : Cls) (ns : List Name) (hd : (c, ns) ∈ p.decls)
    (n : Name) : byName e c n = if n ∈ ns then member p c n else none := by
  obtain ⟨ms, hms, hn, hm⟩ := declared_members p e h c ns hd
  obtain ⟨_, h1, h2⟩ := compile_expand h
  have hmem := (lookup_mem h1).1 hms
  have hnd : (ms.map (·.name)).Nodup :=
    names_nodup hm (nodup_flatten h2 ms (List.mem_map.2 ⟨_, hmem, rfl⟩))
  unfold byName
  rw [hms]
  simp only
  by_cases hx : n ∈ ns
  · rw [if_pos hx, ← hn] at *
    obtain ⟨m, hmm, rfl⟩ := List.mem_map.1 hx
    rw [find_name hnd hmm]
    exact (hm m hmm).symm
  · rw [if_neg hx, List.find?_eq_none]
    intro m hmm
    simp only [decide_eq_true_eq]
    intro hmn
    exact hx (hn ▸ List.mem_map.2 ⟨m, hmm, hmn⟩)

/-- C143: names and values are bound in the order of the declaration, each name with the value it leads to. -/
theorem bound_in_order (p : Prog) (e : Env) (h : compile p = some e) (c : Cls) (ns : List Name) (hd : (c, ns) ∈ p.decls)
    (f : Member → Val P) :
    ∃ vs, bindMap e (.ent c f) = some vs ∧ bindSequence e (.ent c f) = some (vs.map (·.2)) ∧ vs.map (·.1) = ns ∧
      ∀ n v, (n, v) ∈ vs → look e (.ent c f) [n] = some v := by
  obtain ⟨ms, hms, hn, hm⟩ := declared_members p e h c ns hd
  refine ⟨ms.map fun m => (m.name, f m), by simp [bindMap, hms], by simp [bindSequence, hms], by rw [← hn, List.map_map]; rfl, ?_⟩
  intro n v hv
  obtain ⟨m, hmm, he⟩ := List.mem_map.1 hv
  cases he
  have : byName e c m.name = some m := by
    rw [by_name_exact p e h c ns hd, if_pos (hn ▸ List.mem_map.2 ⟨m, hmm, rfl⟩)]
    exact hm m hmm
  simp [look, this]

private theorem mapM_all {α : Type} (ms : List α) (t : α → Option Bool) (ht : ∀ m ∈ ms, ∃ b, t m = some b) :
    ∃ bs, ms.mapM t = some bs ∧ (bs.all id = true ↔ ∀ m ∈ ms, t m = some true) := by
  induction ms with
  | nil => exact ⟨[], rfl, by simp⟩
  | cons m ms ih =>
    obtain ⟨b, hb⟩ := ht m (by simp)
    obtain ⟨bs, hbs, hiff⟩ := ih fun k hk => ht k (by simp [hk])
    refine ⟨b :: bs, by simp [List.mapM_cons, hb, hbs], ?_⟩
    simp only [List.all_cons, id, Bool.and_eq_true, hiff, List.mem_cons, forall_eq_or_imp, hb, Option.some.injEq]

private theorem equal_alike (p : Prog) (e : Env) (h : compile p = some e) (eq : P → P → Bool) {v w : Val P}
    (ha : Alike e v w) : ∃ b, equal e eq v w = some b ∧ (b = true ↔ SameLeaves e eq v w) := by
  induction ha with
  | leaf x y =>
    refine ⟨eq x y, rfl, fun hb path a b h1 h2 => ?_, fun hs => hs [] x y rfl rfl⟩
    cases path with
    | nil => cases h1; cases h2; exact hb
    | cons n ns => simp [look] at h1
  | ent c f g ms he hne hm ih =>
    obtain ⟨hex, h1, h2⟩ := compile_expand h
    obtain ⟨_, hd⟩ := expand_at p _ hex
    obtain ⟨ns, hdecl, hmem⟩ := hd c ms ((lookup_mem h1).1 he)
    have hf := (members_names p c ns hmem).2
    have hn := (members_names p c ns hmem).1
    have byn : ∀ m ∈ ms, byName e c m.name = some m := fun m hmm => by
      rw [by_name_exact p e h c ns hdecl, if_pos (hn ▸ List.mem_map.2 ⟨m, hmm, rfl⟩)]
      exact hf m hmm
    have hall := mapM_all ms (fun m => equal e eq (f m) (g m)) fun m hmm => by
      obtain ⟨b, hb, _⟩ := ih m hmm
      exact ⟨b, hb⟩
    obtain ⟨bs, hbs, hiff⟩ := hall
    refine ⟨bs.all id, ?_, ?_⟩
    · have hmo : membersOf e c = some ms := he
      rw [equal, if_pos rfl, hmo]
      cases ms with
      | nil => exact absurd rfl hne
      | cons m ms => simp only [hbs, Option.map]
    · rw [hiff]
      constructor
      · intro hs path a b ha hb
        cases path with
        | nil => simp [look] at ha
        | cons n rest =>
          cases hx : byName e c n with
          | none => simp [look, hx] at ha
          | some m =>
            have hmm : m ∈ ms := by
              unfold byName at hx
              have hmo : membersOf e c = some ms := he
              rw [hmo] at hx
              exact List.mem_of_find?_eq_some hx
            simp only [look, hx] at ha hb
            obtain ⟨b', hb', hiff'⟩ := ih m hmm
            have := hs m hmm
            rw [hb'] at this
            exact hiff'.1 (Option.some.inj this) rest a b ha hb
      · intro hs m hmm
        obtain ⟨b', hb', hiff'⟩ := ih m hmm
        rw [hb']
        congr 1
        refine hiff'.2 fun path a b ha hb => ?_
        refine hs (m.name :: path) a b ?_ ?_
        · simpa [look, byn m hmm] using ha
        · simpa [look, byn m hmm] using hb

/-- C143: two entities of one type compare equal exactly if every path of declared names that ends in a leaf leads to equal
leaves in both.  (Entities without members are left out, see `empty_violated`.) -/
theorem equal_exact_partial (p : Prog) (e : Env) (h : compile p = some e) (eq : P → P → Bool) (v w : Val P)
    (ha : Alike e v w) : ∃ b, equal e eq v w = some b ∧ (b = true ↔ SameLeaves e eq v w) :=
  equal_alike p e h eq ha

/-- C143 fails for an entity without members, made with `NBDL_EMPTY`: it cannot be compared. -/
theorem empty_violated (e : Env) (eq : P → P → Bool) (c : Cls) (f g : Member → Val P) (he : e.lookup c = some []) :
    equal e eq (.ent c f) (.ent c g) = none := by
  have : membersOf e c = some [] := he
  rw [equal, if_pos rfl, this]

/-- C143: what is stored under a path is found there. -/
theorem stored_found (e : Env) (w : Val P) : ∀ (path : List Name) (v x : Val P), store e w v path = some x →
    look e x path = some w
  | [], v, x, h => by
    have : x = w := by cases v <;> (simp [store] at h; exact h.symm)
    subst this
    cases x <;> rfl
  | n :: ns, .leaf q, x, h => by simp [store] at h
  | n :: ns, .ent c f, x, h => by
    rw [store] at h
    cases hb : byName e c n with
    | none => simp [hb] at h
    | some m =>
      simp only [hb] at h
      cases hs : store e w (f m) ns with
      | none => simp [hs] at h
      | some y =>
        simp only [hs] at h
        cases h
        rw [look, hb]
        simp only [if_true]
        exact stored_found e w ns (f m) y hs

/-- Where there is a value, one can be stored. -/
theorem store_where_found (e : Env) (w : Val P) : ∀ (path : List Name) (v x : Val P), look e v path = some x →
    ∃ y, store e w v path = some y
  | [], v, x, h => ⟨w, by cases v <;> rfl⟩
  | n :: ns, .leaf q, x, h => by simp [look] at h
  | n :: ns, .ent c f, x, h => by
    rw [look] at h
    cases hb : byName e c n with
    | none => simp [hb] at h
    | some m =>
      simp only [hb] at h
      obtain ⟨y, hy⟩ := store_where_found e w ns (f m) x h
      exact ⟨.ent c fun k => if k = m then y else f k, by rw [store, hb]; simp only [hy]⟩

private theorem byName_name {e : Env} {c : Cls} {n : Name} {m : Member} (h : byName e c n = some m) : m.name = n := by
  unfold byName at h
  cases hm : membersOf e c with
  | none => rw [hm] at h; cases h
  | some ms =>
    rw [hm] at h
    have := List.find?_some h
    simpa using this

/-- C143: and nothing else changes: a path that parts from it leads to what it led to before. -/
theorem stored_elsewhere (e : Env) (w : Val P) : ∀ (pre : List Name) (a b : Name) (s t : List Name) (v x : Val P),
    a ≠ b → store e w v (pre ++ a :: s) = some x → look e x (pre ++ b :: t) = look e v (pre ++ b :: t)
  | [], a, b, s, t, .leaf q, x, _, h => by simp [store] at h
  | [], a, b, s, t, .ent c f, x, hab, h => by
    rw [List.nil_append, store] at h
    cases hb : byName e c a with
    | none => simp [hb] at h
    | some m =>
      simp only [hb] at h
      cases hs : store e w (f m) s with
      | none => simp [hs] at h
      | some y =>
        simp only [hs] at h
        cases h
        rw [List.nil_append, look, look]
        cases hc : byName e c b with
        | none => rfl
        | some k =>
          have : k ≠ m := fun hk => hab (by rw [← byName_name hb, ← byName_name hc, hk])
          simp only [this, if_false]
  | n :: pre, a, b, s, t, .leaf q, x, _, h => by simp [store] at h
  | n :: pre, a, b, s, t, .ent c f, x, hab, h => by
    rw [List.cons_append, store] at h
    cases hb : byName e c n with
    | none => simp [hb] at h
    | some m =>
      simp only [hb] at h
      cases hs : store e w (f m) (pre ++ a :: s) with
      | none => simp [hs] at h
      | some y =>
        simp only [hs] at h
        cases h
        rw [List.cons_append, look, look, hb]
        simp only [if_true]
        exact stored_elsewhere e w pre a b s t (f m) y hab hs

/-- C143 fails if a class and its base are both entities and declare a field of the base: the program does not compile. -/
theorem inherited_violated (p : Prog) (base derived : Cls) (n : Name) (ns ks : List Name) (hb : (base, n :: ns) ∈ p.decls)
    (hd : (derived, n :: ks) ∈ p.decls) (hne : base ≠ derived) (m : Member) (h1 : member p base n = some m)
    (h2 : member p derived n = some m) : compile p = none := by
  cases h : compile p with
  | none => rfl
  | some e =>
    exfalso
    obtain ⟨hex, hn1, hn2⟩ := compile_expand h
    obtain ⟨ms, hms, hns, hm⟩ := declared_members p e h _ _ hb
    obtain ⟨ms', hms', hns', hm'⟩ := declared_members p e h _ _ hd
    have i1 : m ∈ ms := by
      have : n ∈ ms.map (·.name) := by rw [hns]; simp
      obtain ⟨k, hk, hkn⟩ := List.mem_map.1 this
      have := hm k hk
      rw [hkn, h1] at this
      cases this
      exact hk
    have i2 : m ∈ ms' := by
      have : n ∈ ms'.map (·.name) := by rw [hns']; simp
      obtain ⟨k, hk, hkn⟩ := List.mem_map.1 this
      have := hm' k hk
      rw [hkn, h2] at this
      cases this
      exact hk
    have e1 := (lookup_mem hn1).1 hms
    have e2 := (lookup_mem hn1).1 hms'
    have key : ∀ (l : Env), (l.map (·.2)).flatten.Nodup → ∀ {a b : List Member}, (base, a) ∈ l → (derived, b) ∈ l →
        m ∈ a → m ∈ b → False := by
      intro l
      induction l with
      | nil => intro _ a b ha; simp at ha
      | cons x l ih =>
        intro hn a b ha hb hma hmb
        rw [List.map_cons, List.flatten_cons, List.nodup_append] at hn
        rcases List.mem_cons.1 ha with xa | xa <;> rcases List.mem_cons.1 hb with xb | xb
        · rw [← xa] at xb; exact hne (Prod.mk.inj xb).1.symm
        · subst xa
          exact hn.2.2 m hma m (List.mem_flatten.2 ⟨b, List.mem_map.2 ⟨(derived, b), xb, rfl⟩, hmb⟩) rfl
        · subst xb
          exact hn.2.2 m hmb m (List.mem_flatten.2 ⟨a, List.mem_map.2 ⟨(base, a), xa, rfl⟩, hma⟩) rfl
        · exact ih hn.2.1 xa xb hma hmb
    exact key e hn2 e1 e2 i1 i2

/-! ## Cases -/

/-- `/repo/test/nbdl/core/entity.cpp`:19-50: person_t (0) and account_t (1), and a class (2) derived from person_t with a
field that is not declared. -/
def sample : Prog where
  line := fun c => if c = 2 then [2, 0] else [c]
  own := fun c => if c = 0 then ["name".toList, "age".toList] else if c = 1 then ["username".toList, "person".toList]
    else if c = 2 then ["rank".toList, "secret".toList] else []
  decls := [(0, ["name".toList, "age".toList]), (1, ["username".toList, "person".toList]), (2, ["rank".toList])]

def sampleEnv : Env := [(0, [⟨0, "name".toList⟩, ⟨0, "age".toList⟩]), (1, [⟨1, "username".toList⟩, ⟨1, "person".toList⟩]),
  (2, [⟨2, "rank".toList⟩])]

example : compile sample = some sampleEnv := by decide

def person (name : String) (age : Nat) : Val String :=
  .ent 0 fun m => if m.name = "name".toList then .leaf name else .leaf (toString age)

def account (user : String) (p : Val String) : Val String :=
  .ent 1 fun m => if m.name = "username".toList then .leaf user else p

/-- "Entity as a Store." (entity.cpp:127-155) -/
example : look sampleEnv (account "@JasonRice_" (person "Jason Rice" 22)) ["person".toList, "name".toList] =
    some (.leaf "Jason Rice") := rfl

/-- "Entity equality." (entity.cpp:52-63) -/
example : equal sampleEnv (· == ·) (person "Skippy" 42) (person "Skippy" 42) = some true ∧
    equal sampleEnv (· == ·) (person "Skippy" 42) (person "Skippy" 43) = some false ∧
    equal sampleEnv (· == ·) (person "Skippy" 42) (person "Skippyz" 42) = some false := by decide

example : Alike sampleEnv (account "a" (person "b" 1)) (account "c" (person "d" 2)) := by
  refine .ent 1 _ _ [⟨1, "username".toList⟩, ⟨1, "person".toList⟩] rfl (by simp) fun m hm => ?_
  simp only [List.mem_cons, List.not_mem_nil, or_false] at hm
  rcases hm with rfl | rfl
  · exact .leaf _ _
  · refine .ent 0 _ _ [⟨0, "name".toList⟩, ⟨0, "age".toList⟩] rfl (by simp) fun m hm => ?_
    simp only [List.mem_cons, List.not_mem_nil, or_false] at hm
    rcases hm with rfl | rfl <;> exact .leaf _ _

/-- "Entity bind_map" (entity.cpp:78-97) -/
example : (bindMap sampleEnv (person "Skippy" 42)).map (·.map (·.1)) = some ["name".toList, "age".toList] := by decide

/-- The derived class declares the inherited name, too. -/
example : compile { sample with decls := [(0, ["name".toList, "age".toList]), (2, ["name".toList, "rank".toList])] } = none :=
  inherited_violated _ 0 2 "name".toList ["age".toList] ["rank".toList] (by decide) (by decide) (by decide)
    ⟨0, "name".toList⟩ (by decide) (by decide)

example : compile { sample with decls := [(2, ["name".toList, "rank".toList])] } =
    some [(2, [⟨0, "name".toList⟩, ⟨2, "rank".toList⟩])] := by decide

end Nbdl.Entity
