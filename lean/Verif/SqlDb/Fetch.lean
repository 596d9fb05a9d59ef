import Verif.SqlDb.Store
/-!
# Evaluating the query of an entity
-/
namespace Nbdl.SqlDb
open Sql Sql.Spec Spec

variable {V K : Type} [DecidableEq V] [DecidableEq K]

/-! ## Lists -/

theorem nodup_map_inj {α β : Type} {f : α → β} {l : List α} (h : (l.map f).Nodup) {a b : α} (ha : a ∈ l) (hb : b ∈ l)
    (e : f a = f b) : a = b := by
  induction l with
  | nil => simp at ha
  | cons x l ih =>
    rw [List.map_cons, List.nodup_cons] at h
    rcases List.mem_cons.1 ha with rfl | ha'
    · rcases List.mem_cons.1 hb with rfl | hb'
      · rfl
      · exact absurd (List.mem_map.2 ⟨b, hb', e.symm⟩) h.1
    · rcases List.mem_cons.1 hb with rfl | hb'
      · exact absurd (List.mem_map.2 ⟨a, ha', e⟩) h.1
      · exact ih h.2 ha' hb'

theorem nodup_of_map {α β : Type} {f : α → β} {l : List α} (h : (l.map f).Nodup) : l.Nodup := by
  induction l with
  | nil => exact .nil
  | cons x l ih =>
    rw [List.map_cons, List.nodup_cons] at h
    exact List.nodup_cons.2 ⟨fun hx => h.1 (List.mem_map.2 ⟨x, hx, rfl⟩), ih h.2⟩

theorem flatMap_nil {α β : Type} (f : α → List β) (l : List α) (h : ∀ x ∈ l, f x = []) : l.flatMap f = [] := by
  induction l with
  | nil => rfl
  | cons x l ih => rw [List.flatMap_cons, h x (by simp), ih fun y hy => h y (by simp [hy])]; rfl

theorem flatMap_single {α β : Type} (f : α → List β) {l : List α} (h : l.Nodup) {a : α} (ha : a ∈ l)
    (hf : ∀ x ∈ l, x ≠ a → f x = []) : l.flatMap f = f a := by
  induction l with
  | nil => simp at ha
  | cons x l ih =>
    rw [List.nodup_cons] at h
    rw [List.flatMap_cons]
    rcases List.mem_cons.1 ha with rfl | ha'
    · rw [flatMap_nil f l fun y hy => hf y (by simp [hy]) fun e => h.1 (e ▸ hy), List.append_nil]
    · rw [hf x (by simp) fun e => h.1 (e ▸ ha'), ih h.2 ha' fun y hy => hf y (by simp [hy])]; rfl

theorem filter_single {α : Type} (p : α → Bool) {l : List α} (h : l.Nodup) {a : α} (ha : a ∈ l) (hp : p a = true)
    (hf : ∀ x ∈ l, p x = true → x = a) : l.filter p = [a] := by
  induction l with
  | nil => simp at ha
  | cons x l ih =>
    rw [List.nodup_cons] at h
    by_cases hx : p x = true
    · have e := hf x (by simp) hx
      subst e
      rw [List.filter_cons_of_pos hx, List.filter_eq_nil_iff.2]
      intro y hy hpy
      exact h.1 (hf y (by simp [hy]) hpy ▸ hy)
    · rw [List.filter_cons_of_neg hx]
      rcases List.mem_cons.1 ha with rfl | ha'
      · exact absurd hp hx
      · exact ih h.2 ha' fun y hy => hf y (by simp [hy])

theorem find_of_nodup {α β : Type} [DecidableEq α] {l : List (α × β)} (h : (l.map (·.1)).Nodup) {a : α} {b : β}
    (hm : (a, b) ∈ l) : l.find? (·.1 = a) = some (a, b) := by
  induction l with
  | nil => simp at hm
  | cons x l ih =>
    rw [List.map_cons, List.nodup_cons] at h
    rcases List.mem_cons.1 hm with rfl | hm'
    · simp
    · have : x.1 ≠ a := fun e => h.1 (List.mem_map.2 ⟨(a, b), hm', e.symm⟩)
      rw [List.find?_cons_of_neg (by simpa using this)]
      exact ih h.2 hm'

/-! ## Rows -/

omit [DecidableEq V] [DecidableEq K] in
theorem keyed_inj {db : Log V K} (h : Keyed db) {a b : Row V K × K} (ha : a ∈ db) (hb : b ∈ db)
    (ht : a.1.table = b.1.table) (hk : a.2 = b.2) : a = b :=
  nodup_map_inj h ha hb (by simp [ht, hk])

omit [DecidableEq V] [DecidableEq K] in
theorem cell_key (e : Row V K × K) : cell e (keyName e.1.table) = some (.key e.2) := by
  rw [cell, if_pos rfl]

omit [DecidableEq V] [DecidableEq K] in
theorem cell_col (t : Text) (cols : List (Text × Col V K)) (k : K) (hd : (cols.map (·.1)).Nodup)
    (hk : keyName t ∉ cols.map (·.1)) {c : Text} {x : Col V K} (hm : (c, x) ∈ cols) :
    cell (⟨t, cols⟩, k) c = some x := by
  have : c ≠ keyName t := fun e => hk (List.mem_map.2 ⟨_, hm, e⟩)
  rw [cell, if_neg this]
  dsimp only
  rw [find_of_nodup hd hm]; rfl

/-! ## Joins -/

def look (env : Env V K) (x : Text) : Option (Row V K × K) := (env.find? (·.1 = x)).map (·.2)

omit [DecidableEq V] [DecidableEq K] in
theorem cellOf_look (env : Env V K) (c : Text × Text) : cellOf env c = (look env c.1).bind fun e => cell e c.2 := by
  rw [cellOf, look]
  cases env.find? (·.1 = c.1) <;> rfl

omit [DecidableEq V] [DecidableEq K] in
theorem look_cons_ne (env : Env V K) (a x : Text) (e : Row V K × K) (h : x ≠ a) :
    look ((a, e) :: env) x = look env x := by
  rw [look, look, List.find?_cons_of_neg (by simpa using fun e : a = x => h e.symm)]

omit [DecidableEq V] [DecidableEq K] in
theorem look_cons_self (env : Env V K) (a : Text) (e : Row V K × K) : look ((a, e) :: env) a = some e := by
  rw [look, List.find?_cons_of_pos (by simp)]; rfl

theorem evalJoin_append (db : Log V K) (xs ys : List (Env V K)) (j : Join) :
    evalJoin db (xs ++ ys) j = evalJoin db xs j ++ evalJoin db ys j := by
  simp only [evalJoin, List.flatMap_append]

theorem joins_append (db : Log V K) (js : List Join) : ∀ xs ys : List (Env V K),
    js.foldl (evalJoin db) (xs ++ ys) = js.foldl (evalJoin db) xs ++ js.foldl (evalJoin db) ys := by
  induction js with
  | nil => intros; rfl
  | cons j js ih => intro xs ys; rw [List.foldl_cons, evalJoin_append, ih]; rfl

theorem joins_nil (db : Log V K) (js : List Join) : js.foldl (evalJoin db) [] = [] := by
  induction js with
  | nil => rfl
  | cons j js ih => exact ih

theorem joins_flatMap (db : Log V K) (js : List Join) (xs : List (Env V K)) :
    js.foldl (evalJoin db) xs = xs.flatMap fun env => js.foldl (evalJoin db) [env] := by
  induction xs with
  | nil => exact joins_nil db js
  | cons x xs ih => rw [← List.singleton_append, joins_append, ih]; rfl

/-- Joins leave the rows of other aliases alone. -/
theorem joins_keep (db : Log V K) (x : Text) (js : List Join) (hx : ∀ j ∈ js, j.alias ≠ x) :
    ∀ (envs : List (Env V K)), ∀ env' ∈ js.foldl (evalJoin db) envs, ∃ env ∈ envs, look env' x = look env x := by
  induction js with
  | nil => intro envs env' h; exact ⟨env', h, rfl⟩
  | cons j js ih =>
    intro envs env' h
    obtain ⟨env1, h1, h2⟩ := ih (fun j' h' => hx j' (by simp [h'])) _ env' h
    obtain ⟨env, h3, h4⟩ := List.mem_flatMap.1 h1
    obtain ⟨e, -, rfl⟩ := List.mem_map.1 h4
    exact ⟨env, h3, by rw [h2, look_cons_ne _ _ _ _ fun e => hx j (by simp) e.symm]⟩

/-- If for every join exactly one row has the right key, the joins find it. -/
theorem joins_eval {db : Log V K} (hk : Keyed db) (Rel : Text → Row V K × K → Prop) (js : List Alias)
    (hstep : ∀ a ∈ js, ∀ p, Rel a.parent p →
      ∃ r ∈ db, r.1.table = a.table ∧ cell p (keyName a.member) = some (.key r.2) ∧ Rel a.alias r) :
    ∀ (known : List Text) (env : Env V K), Introduced known js → (∀ a ∈ js, a.alias ∉ known) →
      (js.map (·.alias)).Nodup → (∀ x ∈ known, ∃ e, look env x = some e ∧ Rel x e) →
      ∃ env', (js.map toJoin).foldl (evalJoin db) [env] = [env'] ∧
        (∀ x, x ∈ known ∨ x ∈ js.map (·.alias) → ∃ e, look env' x = some e ∧ Rel x e) := by
  induction js with
  | nil => intro known env _ _ _ h; exact ⟨env, rfl, fun x hx => h x (by simpa using hx)⟩
  | cons a js ih =>
    intro known env hi hn hd h
    obtain ⟨p, hp1, hp2⟩ := h _ hi.1
    obtain ⟨r, hr1, hr2, hr3, hr4⟩ := hstep a (by simp) p hp2
    have hpa : a.parent ≠ a.alias := fun e => hn a (by simp) (e ▸ hi.1)
    have hleft : ∀ e : Row V K × K, cellOf ((a.alias, e) :: env) (a.parent, keyName a.member) = some (.key r.2) := by
      intro e
      rw [cellOf_look]
      show (look ((a.alias, e) :: env) a.parent).bind (fun e => cell e (keyName a.member)) = _
      rw [look_cons_ne _ _ _ _ hpa, hp1]
      exact hr3
    have hright : ∀ e : Row V K × K, e.1.table = a.table →
        cellOf ((a.alias, e) :: env) (a.alias, keyName a.table) = some (.key e.2) := by
      intro e he
      rw [cellOf_look]
      show (look ((a.alias, e) :: env) a.alias).bind (fun e => cell e (keyName a.table)) = _
      rw [look_cons_self, ← he]
      exact cell_key e
    have hone : evalJoin db [env] (toJoin a) = [(a.alias, r) :: env] := by
      simp only [evalJoin, List.flatMap_cons, List.flatMap_nil, List.append_nil]
      rw [filter_single _ (nodup_of_map hk) hr1]
      · rfl
      · show (decide (r.1.table = a.table) && same ((a.alias, r) :: env) (a.parent, keyName a.member)
          (a.alias, keyName a.table)) = true
        rw [same, hleft, hright r hr2]
        simp [hr2]
      · intro e he hp
        have hp : (decide (e.1.table = a.table) && same ((a.alias, e) :: env) (a.parent, keyName a.member)
          (a.alias, keyName a.table)) = true := hp
        rw [Bool.and_eq_true, decide_eq_true_eq] at hp
        obtain ⟨h1, h2⟩ := hp
        rw [same, hleft, hright e h1] at h2
        simp only [Col.key.injEq, decide_eq_true_eq] at h2
        exact keyed_inj hk he hr1 (h1.trans hr2.symm) h2.symm
    rw [List.map_cons, List.nodup_cons] at hd
    obtain ⟨env', h1, h2⟩ := ih (fun b hb => hstep b (by simp [hb])) (a.alias :: known) ((a.alias, r) :: env) hi.2
      (by
        intro b hb hm
        rcases List.mem_cons.1 hm with e | hm
        · exact hd.1 (List.mem_map.2 ⟨b, hb, e⟩)
        · exact hn b (by simp [hb]) hm) hd.2
      (by
        intro x hx
        by_cases e : x = a.alias
        · subst e; exact ⟨r, look_cons_self .., hr4⟩
        · rw [look_cons_ne _ _ _ _ e]
          exact h x ((List.mem_cons.1 hx).resolve_left e))
    refine ⟨env', by rw [List.map_cons, List.foldl_cons, hone]; exact h1, fun x hx => h2 x ?_⟩
    rcases hx with hx | hx
    · exact .inl (by simp [hx])
    · rw [List.map_cons, List.mem_cons] at hx
      rcases hx with rfl | hx
      · exact .inl (by simp)
      · exact .inr hx

/-! ## Entities and their types -/

omit [DecidableEq V] in
theorem typesOf_eq (ms : List (Node V)) : typesOf ms = ms.map typeOf := by
  induction ms with
  | nil => rfl
  | cons m ms ih => rw [typesOf, ih]; rfl

theorem typesOf_names (ms : List (Node V)) : (typesOf ms).map memberName = ms.map nodeName := by
  rw [typesOf_eq, List.map_map]
  apply List.map_congr_left
  intro m _
  cases m <;> rfl

theorem ent_mem_types {ms : List (Node V)} {n t : Text} {tms : List Ty} (h : .ent n t tms ∈ typesOf ms) :
    ∃ ms', .ent n t ms' ∈ ms ∧ tms = typesOf ms' := by
  rw [typesOf_eq] at h
  obtain ⟨m, hm, e⟩ := List.mem_map.1 h
  cases m with
  | ent n' t' ms' =>
    simp only [typeOf, Ty.ent.injEq] at e
    obtain ⟨rfl, rfl, rfl⟩ := e
    exact ⟨ms', hm, rfl⟩
  | value => simp [typeOf] at e
  | rows => simp [typeOf] at e

theorem value_mem_types {ms : List (Node V)} {n : Text} (h : .value n ∈ typesOf ms) : ∃ v, .value n v ∈ ms := by
  rw [typesOf_eq] at h
  obtain ⟨m, hm, e⟩ := List.mem_map.1 h
  cases m with
  | value n' v =>
    simp only [typeOf, Ty.value.injEq] at e
    subst e
    exact ⟨v, hm⟩
  | ent => simp [typeOf] at e
  | rows => simp [typeOf] at e

theorem mem_types {ms : List (Node V)} {m : Node V} (h : m ∈ ms) : typeOf m ∈ typesOf ms := by
  rw [typesOf_eq]; exact List.mem_map.2 ⟨m, h, rfl⟩

theorem entAt_of_nodeAt {table : Text} {ms : List (Node V)} {path : List Text} {t : Text} {ms' : List (Node V)}
    (h : NodeAt table ms path t ms') : EntAt table (typesOf ms) path t (typesOf ms') := by
  induction h with
  | root => exact .root
  | child _ hm ih => exact .child ih (mem_types hm)

theorem nodeAt_of_entAt {table : Text} {ms : List (Node V)} {path : List Text} {t : Text} {tms : List Ty}
    (h : EntAt table (typesOf ms) path t tms) : ∃ ms', NodeAt table ms path t ms' ∧ tms = typesOf ms' := by
  induction h with
  | root => exact ⟨ms, .root, rfl⟩
  | child _ hm ih =>
    obtain ⟨ms1, h1, rfl⟩ := ih
    obtain ⟨ms2, h2, rfl⟩ := ent_mem_types hm
    exact ⟨ms2, .child h1 h2, rfl⟩

theorem goodMembers_mem {t : Text} {ms : List (Node V)} (h : GoodMembers t ms) {n t' : Text} {ms' : List (Node V)}
    (hm : .ent n t' ms' ∈ ms) : Good [] (.ent n t' ms') := by
  induction ms with
  | nil => simp at hm
  | cons m ms ih =>
    cases m with
    | value a b => exact ih h ((List.mem_cons.1 hm).resolve_left nofun)
    | rows a b => exact ih h.2 ((List.mem_cons.1 hm).resolve_left nofun)
    | ent a b c =>
      rcases List.mem_cons.1 hm with e | hm
      · injection e with e1 e2 e3
        subst e1 e2 e3
        exact h.1
      · exact ih h.2 hm

theorem nodeAt_good {table : Text} {ms : List (Node V)} (hg : Good [] (.ent [] table ms)) {path : List Text} {t : Text}
    {ms' : List (Node V)} (h : NodeAt table ms path t ms') : Good [] (.ent [] t ms') := by
  induction h with
  | root => exact hg
  | child _ hm ih =>
    have h := goodMembers_mem ih.2.2.2.2.2.2 hm
    rw [Good] at h ⊢; exact h

theorem nodeAt_path {table : Text} {ms : List (Node V)} (hg : Good [] (.ent [] table ms)) {path : List Text} {t : Text}
    {ms' : List (Node V)} (h : NodeAt table ms path t ms') : ∀ n ∈ path, Clean n ∧ '.' ∉ n := by
  induction h with
  | root => simp
  | child h1 hm ih =>
    intro n hn
    rcases List.mem_append.1 hn with hn | hn
    · exact ih n hn
    · rw [List.mem_singleton] at hn
      subst hn
      exact (nodeAt_good hg h1).2.1 _ (List.mem_map.2 ⟨_, hm, rfl⟩)

theorem nodeAt_unique {table : Text} {ms : List (Node V)} (hg : Good [] (.ent [] table ms)) {path : List Text}
    {t : Text} {ms' : List (Node V)} (h : NodeAt table ms path t ms') :
    ∀ {t2 : Text} {ms2 : List (Node V)}, NodeAt table ms path t2 ms2 → t = t2 ∧ ms' = ms2 := by
  induction h with
  | root =>
    intro t2 ms2 h2
    generalize hp : ([] : List Text) = p at h2
    cases h2 with
    | root => exact ⟨rfl, rfl⟩
    | child => simp at hp
  | @child path t ms1 name t' ms1' h1 hm ih =>
    intro t2 ms2 h2
    generalize hp : path ++ [name] = p at h2
    cases h2 with
    | root => simp at hp
    | child g1 gm =>
      obtain ⟨rfl, e⟩ := List.append_inj' hp (by simp)
      injection e with e
      subst e
      obtain ⟨rfl, rfl⟩ := ih g1
      have := nodup_map_inj (nodeAt_good hg h1).2.2.1 hm gm rfl
      injection this with _ e1 e2
      exact ⟨e1, e2⟩

theorem dots_inj : ∀ {p q : List Text}, (∀ n ∈ p, '.' ∉ n) → (∀ n ∈ q, '.' ∉ n) →
    p.flatMap ('.' :: ·) ++ ['.'] = q.flatMap ('.' :: ·) ++ ['.'] → p = q := by
  have hd : ∀ p : List Text, ∃ r, p.flatMap ('.' :: ·) ++ ['.'] = '.' :: r := by
    intro p
    cases p with
    | nil => exact ⟨[], rfl⟩
    | cons n p => exact ⟨n ++ (p.flatMap ('.' :: ·) ++ ['.']), by simp⟩
  intro p
  induction p with
  | nil =>
    intro q _ _ h
    cases q with
    | nil => rfl
    | cons m q => have := congrArg List.length h; simp at this
  | cons n p ih =>
    intro q hp hq h
    cases q with
    | nil => have := congrArg List.length h; simp at this
    | cons m q =>
      obtain ⟨r, hr⟩ := hd p
      obtain ⟨s, hs⟩ := hd q
      simp only [List.flatMap_cons, List.cons_append, List.append_assoc, List.cons.injEq, true_and] at h
      rw [hr, hs] at h
      obtain ⟨rfl, rfl⟩ := dot_split (hp n (by simp)) (hq m (by simp)) h
      rw [ih (fun x hx => hp x (by simp [hx])) (fun x hx => hq x (by simp [hx])) (hr.trans hs.symm)]

theorem aliasPath_eq (table : Text) (path : List Text) : aliasPath table path = table ++ path.flatMap ('.' :: ·) := by
  rw [aliasPath]
  induction path generalizing table with
  | nil => simp
  | cons n path ih => rw [List.foldl_cons, ih]; simp

theorem aliasPath_inj {table : Text} {p q : List Text} (hp : ∀ n ∈ p, '.' ∉ n) (hq : ∀ n ∈ q, '.' ∉ n)
    (h : aliasPath table p = aliasPath table q) : p = q := by
  rw [aliasPath_eq, aliasPath_eq] at h
  exact dots_inj hp hq (by rw [List.append_cancel_left h])

theorem aliasPath_clean {table : Text} {p : List Text} (ht : Clean table) (hp : ∀ n ∈ p, Clean n) :
    Clean (aliasPath table p) := by
  rw [aliasPath_eq]
  simp only [Clean, List.mem_append, List.mem_flatMap, not_or, not_exists, not_and, List.mem_cons]
  exact ⟨ht, fun n hn => ⟨by decide, hp n hn⟩⟩

theorem storedChildren_names {log : Log V K} : ∀ {ids : List (Text × Col V K)} {ms : List (Node V)},
    StoredChildren log ids ms → ids.map (·.1) = childKeys ms := by
  intro ids ms
  induction ms generalizing ids with
  | nil => intro h; rw [StoredChildren] at h; rw [h]; rfl
  | cons m ms ih =>
    cases m with
    | value a b => intro h; exact ih h
    | rows a b => intro h; exact ih h
    | ent a b c =>
      rintro ⟨k, rest, rfl, -, h⟩
      rw [List.map_cons, ih h]; rfl

theorem storedChildren_mem {log : Log V K} : ∀ {ids : List (Text × Col V K)} {ms : List (Node V)},
    StoredChildren log ids ms → ∀ {n t : Text} {ms' : List (Node V)}, .ent n t ms' ∈ ms →
    ∃ k, (keyName n, .key k) ∈ ids ∧ Stored log [] k (.ent n t ms') := by
  intro ids ms
  induction ms generalizing ids with
  | nil => intro _ n t ms' hm; simp at hm
  | cons m ms ih =>
    cases m with
    | value a b => intro h n t ms' hm; exact ih h ((List.mem_cons.1 hm).resolve_left nofun)
    | rows a b => intro h n t ms' hm; exact ih h ((List.mem_cons.1 hm).resolve_left nofun)
    | ent a b c =>
      rintro ⟨k, rest, rfl, hs, h⟩ n t ms' hm
      rcases List.mem_cons.1 hm with e | hm
      · injection e with e1 e2 e3
        subst e1 e2 e3
        exact ⟨k, by simp, hs⟩
      · obtain ⟨k', h1, h2⟩ := ih h hm
        exact ⟨k', by simp [h1], h2⟩

/-! ## The columns are different -/

/-- The tables of a query with their members. -/
def levelTys (pre : Text) : List Ty → List (Text × List Ty)
  | [] => []
  | .ent name _ ms' :: ms => (joinAlias pre name, ms') :: levelTys pre ms
  | _ :: ms => levelTys pre ms
mutual
def tysOf (pre : Text) : Ty → List (Text × List Ty)
  | .ent name _ ms => levelTys (joinAlias pre name) ms ++ tysRec (joinAlias pre name) ms
  | _ => []
def tysRec (pre : Text) : List Ty → List (Text × List Ty)
  | [] => []
  | m :: ms => tysOf pre m ++ tysRec pre ms
end

def colsOf (p : Text × List Ty) : List (Text × Text) := valueColumns p.1 p.2

theorem levelTys_cols (pre : Text) (ms : List Ty) : columnLevel pre ms = (levelTys pre ms).flatMap colsOf := by
  induction ms with
  | nil => rfl
  | cons m ms ih => cases m <;> simp [columnLevel, levelTys, ih, colsOf]

theorem levelTys_alias (pre : Text) (ms : List Ty) : (levelTys pre ms).map (·.1) = (aliasLevel pre ms).map (·.alias) := by
  induction ms with
  | nil => rfl
  | cons m ms ih => cases m <;> simp [aliasLevel, levelTys, ih]

mutual
theorem tysOf_cols (pre : Text) : ∀ m : Ty, columnsOf pre m = (tysOf pre m).flatMap colsOf
  | .value n => rfl
  | .rows n => rfl
  | .ent n t ms => by
    rw [columnsOf, tysOf, List.flatMap_append, levelTys_cols, tysRec_cols _ ms]
theorem tysRec_cols (pre : Text) : ∀ ms : List Ty, columnsRec pre ms = (tysRec pre ms).flatMap colsOf
  | [] => rfl
  | m :: ms => by rw [columnsRec, tysRec, List.flatMap_append, tysOf_cols pre m, tysRec_cols pre ms]
end

mutual
theorem tysOf_alias (pre : Text) : ∀ m : Ty, (tysOf pre m).map (·.1) = (aliasOf pre m).map (·.alias)
  | .value n => rfl
  | .rows n => rfl
  | .ent n t ms => by
    rw [aliasOf, tysOf, List.map_append, List.map_append, levelTys_alias, tysRec_alias _ ms]
theorem tysRec_alias (pre : Text) : ∀ ms : List Ty, (tysRec pre ms).map (·.1) = (aliasRec pre ms).map (·.alias)
  | [] => rfl
  | m :: ms => by rw [aliasRec, tysRec, List.map_append, List.map_append, tysOf_alias pre m, tysRec_alias pre ms]
end

theorem named_mem {ms : List Ty} (h : NamedAll ms) {m : Ty} (hm : m ∈ ms) : Named m := by
  induction ms with
  | nil => simp at hm
  | cons x ms ih =>
    rcases List.mem_cons.1 hm with rfl | hm
    · exact h.1
    · exact ih h.2 hm

theorem levelTys_named (pre : Text) (ms : List Ty) (h : NamedAll ms) :
    ∀ p ∈ levelTys pre ms, (p.2.map memberName).Nodup := by
  induction ms with
  | nil => simp [levelTys]
  | cons m ms ih =>
    cases m with
    | value n => exact ih h.2
    | rows n => exact ih h.2
    | ent n t ms' =>
      intro p hp
      rcases List.mem_cons.1 hp with rfl | hp
      · exact h.1.2.1
      · exact ih h.2 p hp

mutual
theorem tysOf_named (pre : Text) : ∀ m : Ty, Named m → ∀ p ∈ tysOf pre m, (p.2.map memberName).Nodup
  | .value n, _, p, hp => by simp [tysOf] at hp
  | .rows n, _, p, hp => by simp [tysOf] at hp
  | .ent n t ms, h, p, hp => by
    rw [tysOf, List.mem_append] at hp
    rcases hp with hp | hp
    · exact levelTys_named _ ms h.2.2 p hp
    · exact tysRec_named _ ms h.2.2 p hp
theorem tysRec_named (pre : Text) : ∀ ms : List Ty, NamedAll ms → ∀ p ∈ tysRec pre ms, (p.2.map memberName).Nodup
  | [], _, p, hp => by simp [tysRec] at hp
  | m :: ms, h, p, hp => by
    rw [tysRec, List.mem_append] at hp
    rcases hp with hp | hp
    · exact tysOf_named pre m h.1 p hp
    · exact tysRec_named pre ms h.2 p hp
end

theorem valueColumns_nodup (a : Text) (ms : List Ty) (h : (ms.map memberName).Nodup) : (valueColumns a ms).Nodup := by
  induction ms with
  | nil => exact .nil
  | cons m ms ih =>
    rw [List.map_cons, List.nodup_cons] at h
    cases m with
    | rows n => exact ih h.2
    | ent n t x => exact ih h.2
    | value n =>
      rw [valueColumns, List.nodup_cons]
      refine ⟨fun hm => h.1 ?_, ih h.2⟩
      have := ((mem_valueColumns ..).1 hm).2
      exact List.mem_map.2 ⟨_, this, rfl⟩

theorem colsOf_nodup (l : List (Text × List Ty)) (h : (l.map (·.1)).Nodup) (hn : ∀ p ∈ l, (p.2.map memberName).Nodup) :
    (l.flatMap colsOf).Nodup := by
  induction l with
  | nil => exact .nil
  | cons p l ih =>
    rw [List.map_cons, List.nodup_cons] at h
    rw [List.flatMap_cons, List.nodup_append]
    refine ⟨valueColumns_nodup _ _ (hn p (by simp)), ih h.2 fun q hq => hn q (by simp [hq]), ?_⟩
    rintro c hc d hd rfl
    obtain ⟨q, hq, hq2⟩ := List.mem_flatMap.1 hd
    have e1 := ((mem_valueColumns ..).1 hc).1
    have e2 := ((mem_valueColumns ..).1 hq2).1
    exact h.1 (List.mem_map.2 ⟨q, hq, e2.symm.trans e1⟩)

/-- No column is asked for twice. -/
theorem columns_distinct (table : Text) (ms : List Ty) (hd : (ms.map memberName).Nodup) (hn : NamedAll ms) :
    (aliasedColumns table ms).Nodup := by
  have e : aliasedColumns table ms = ((table, ms) :: (levelTys table ms ++ tysRec table ms)).flatMap colsOf := by
    rw [aliasedColumns, levelTys_cols, tysRec_cols, ← List.flatMap_append]; rfl
  rw [e]
  apply colsOf_nodup
  · rw [List.map_cons, List.map_append, levelTys_alias, tysRec_alias, ← List.map_append]
    exact aliases_distinct table ms hd hn
  · intro p hp
    rcases List.mem_cons.1 hp with rfl | hp
    · exact hd
    · rcases List.mem_append.1 hp with hp | hp
      · exact levelTys_named _ _ hn p hp
      · exact tysRec_named _ _ hn p hp

mutual
theorem good_named : ∀ (keys : List Text) (e : Node V), Good keys e → '.' ∉ nodeName e → Named (typeOf e)
  | _, .ent n t ms, h, hn => by
    refine ⟨hn, ?_, goodMembers_named t ms h.2.2.2.2.2.2 fun n hm => (h.2.1 n hm).2⟩
    rw [typesOf_names]; exact h.2.2.1
  | _, .value .., h, _ => by simp [Good] at h
  | _, .rows .., h, _ => by simp [Good] at h
theorem goodMembers_named (t : Text) : ∀ ms : List (Node V), GoodMembers t ms → (∀ n ∈ ms.map nodeName, '.' ∉ n) →
    NamedAll (typesOf ms)
  | [], _, _ => trivial
  | .value n v :: ms, h, hn =>
    ⟨hn n (by simp [nodeName]), goodMembers_named t ms h fun x hx => hn x (by rw [List.map_cons]; exact List.mem_cons_of_mem _ hx)⟩
  | .ent n t' ms' :: ms, h, hn =>
    ⟨good_named [] (.ent n t' ms') h.1 (hn n (by simp [nodeName])),
      goodMembers_named t ms h.2 fun x hx => hn x (by rw [List.map_cons]; exact List.mem_cons_of_mem _ hx)⟩
  | .rows n es :: ms, h, hn =>
    ⟨hn n (by simp [nodeName]), goodMembers_named t ms h.2 fun x hx => hn x (by rw [List.map_cons]; exact List.mem_cons_of_mem _ hx)⟩
end

end Nbdl.SqlDb
