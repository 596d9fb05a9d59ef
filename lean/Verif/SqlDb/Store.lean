import Verif.SqlDb.Read
/-!
# Executing the insert statements of an entity
-/
namespace Nbdl.SqlDb
open Sql Sql.Spec Spec

variable {V K : Type} [DecidableEq V] [DecidableEq K]

theorem zip_unzip {α β : Type} (l : List (α × β)) : (l.map (·.1)).zip (l.map (·.2)) = l := by
  induction l with
  | nil => rfl
  | cons a l ih => simp [ih]

/-- An insert statement adds its row, with the key the database assigns. -/
theorem change_insert (fresh : Log V K → Text → K) (db : Log V K) (table : Text) (cols : List (Text × Col V K))
    (hne : cols ≠ []) (ht : Clean table) (hc : ∀ c ∈ cols, Clean c.1) (hd : (cols.map (·.1)).Nodup)
    (hk : keyName table ∉ cols.map (·.1)) :
    (insertStmt table cols).bind (change fresh db) = some (db ++ [(⟨table, cols⟩, fresh db table)]) := by
  obtain ⟨text, h1, h2⟩ := insert_statement table cols hne ht hc
  have hr : read text = some (.insert table (cols.map (·.1))) := by
    refine read_insert text table _ (by simpa using hne) ?_
    rw [h2, List.map_map, List.map_map]; rfl
  have hf : cols.find? (·.1 = keyName table) = none := by
    rw [List.find?_eq_none]
    intro c hc e
    exact hk (List.mem_map.2 ⟨c, hc, by simpa using e⟩)
  rw [h1]
  show change fresh db (text, cols.map (·.2)) = _
  rw [change, hr]
  dsimp only
  rw [execInsert, if_pos ⟨by simp, hd⟩, zip_unzip, hf]

theorem changes_append (fresh : Log V K → Text → K) (ss ts : List (Option (Text × List (Col V K)))) :
    ∀ db : Log V K, changes fresh db (ss ++ ts) = (changes fresh db ss).bind fun db' => changes fresh db' ts := by
  induction ss with
  | nil => intro db; rfl
  | cons s ss ih =>
    intro db
    rw [List.cons_append, changes, changes]
    cases s.bind (change fresh db) with
    | none => rfl
    | some d => exact ih d

/-- The statement that inserts a row. -/
def stmtOf (e : Row V K × K) : Option (Text × List (Col V K)) := insertStmt e.1.table e.1.cols

/-- The second database is what the insert statements of its additional rows make of the first one. -/
def Steps (fresh : Log V K → Text → K) (db db' : Log V K) : Prop :=
  ∃ new, db' = db ++ new ∧ changes fresh db (new.map stmtOf) = some db' ∧ (Keyed db → Keyed db')

omit [DecidableEq V] [DecidableEq K] in
theorem keyed_snoc {db : Log V K} {row : Row V K} {k : K} (h : Keyed db) (hk : ∀ e ∈ db, e.1.table = row.table → e.2 ≠ k) :
    Keyed (db ++ [(row, k)]) := by
  unfold Keyed at *
  rw [List.map_append, List.nodup_append]
  refine ⟨h, by simp, ?_⟩
  intro a ha b hb e
  obtain ⟨x, hx, rfl⟩ := List.mem_map.1 ha
  simp only [List.map_cons, List.map_nil, List.mem_singleton] at hb
  subst hb
  simp only [Prod.mk.injEq] at e
  exact hk x hx e.1 e.2

theorem Steps.refl (fresh : Log V K → Text → K) (db : Log V K) : Steps fresh db db :=
  ⟨[], by simp, rfl, fun h => h⟩

theorem Steps.trans {fresh : Log V K → Text → K} {a b c : Log V K} (h : Steps fresh a b) (g : Steps fresh b c) :
    Steps fresh a c := by
  obtain ⟨n, rfl, h1, h2⟩ := h
  obtain ⟨m, rfl, g1, g2⟩ := g
  refine ⟨n ++ m, by simp, ?_, fun x => g2 (h2 x)⟩
  rw [List.map_append, changes_append, h1]
  exact g1

theorem Steps.one {fresh : Log V K → Text → K} (hf : Fresh fresh) (db : Log V K) (table : Text)
    (cols : List (Text × Col V K)) (hne : cols ≠ []) (ht : Clean table) (hc : ∀ c ∈ cols, Clean c.1)
    (hd : (cols.map (·.1)).Nodup) (hk : keyName table ∉ cols.map (·.1)) :
    Steps fresh db (db ++ [(⟨table, cols⟩, fresh db table)]) := by
  refine ⟨[(⟨table, cols⟩, fresh db table)], rfl, ?_, fun h => keyed_snoc h (hf db table)⟩
  have := change_insert fresh db table cols hne ht hc hd hk
  simp only [List.map_cons, List.map_nil, changes, stmtOf, this]
  rfl

mutual
theorem good_proper : ∀ (keys : List Text) (e : Node V), Good keys e → Proper e
  | _, .ent _ t ms, h => goodMembers_proper t ms h.2.2.2.2.2.2
  | _, .value .., h => by simp [Good] at h
  | _, .rows .., h => by simp [Good] at h
theorem goodMembers_proper (t : Text) : ∀ ms : List (Node V), GoodMembers t ms → ProperMembers ms
  | [], _ => trivial
  | .value .. :: ms, h => goodMembers_proper t ms h
  | .ent n t' ms' :: ms, h => ⟨good_proper [] (.ent n t' ms') h.1, goodMembers_proper t ms h.2⟩
  | .rows _ es :: ms, h => ⟨goodAll_proper t es h.1, goodMembers_proper t ms h.2⟩
theorem goodAll_proper (t : Text) : ∀ es : List (Node V), GoodAll t es → ProperAll es
  | [], _ => trivial
  | e :: es, h => ⟨good_proper _ e h.1, goodAll_proper t es h.2⟩
end

omit [DecidableEq V] [DecidableEq K] in
theorem valueCols_names (ms : List (Node V)) : (valueCols (K := K) ms).map (·.1) = plainNames ms := by
  induction ms with
  | nil => rfl
  | cons m ms ih => cases m <;> simp_all [valueCols, plainNames]

omit [DecidableEq V] in
theorem childKeys_clean (ms : List (Node V)) (h : ∀ n ∈ ms.map nodeName, Clean n ∧ '.' ∉ n) :
    ∀ n ∈ childKeys ms, Clean n := by
  intro n hn
  obtain ⟨m, hm, e⟩ := List.mem_filterMap.1 hn
  cases m with
  | ent n' t ms' =>
    simp only [Option.some.injEq] at e
    subst e
    exact clean_key (h _ (List.mem_map.2 ⟨_, hm, rfl⟩)).1
  | _ => cases e

omit [DecidableEq V] in
theorem plainNames_clean (ms : List (Node V)) (h : ∀ n ∈ ms.map nodeName, Clean n ∧ '.' ∉ n) :
    ∀ n ∈ plainNames ms, Clean n := by
  intro n hn
  obtain ⟨m, hm, e⟩ := List.mem_filterMap.1 hn
  cases m with
  | value n' v =>
    simp only [Option.some.injEq] at e
    subst e
    exact (h _ (List.mem_map.2 ⟨_, hm, rfl⟩)).1
  | _ => cases e

/-- Assigning keys by table. -/
abbrev assign (fresh : Log V K → Text → K) : Log V K → Row V K → K := fun db row => fresh db row.table

mutual
theorem insert_steps {fresh : Log V K → Text → K} (hf : Fresh fresh) (keys : List (Text × Col V K))
    (hkc : ∀ c ∈ keys, Clean c.1) (db : Log V K) : ∀ e : Node V, Good (keys.map (·.1)) e →
    Steps fresh db (insert (assign fresh) (fun k => k) keys db e).1
  | .ent name t ms, h => by
    obtain ⟨h1, h2, h3, h4, h5, h6, h7⟩ := h
    obtain ⟨c1, c2⟩ := insertChildren_steps hf db t ms h7
    have hn : (keys ++ (insertChildren (assign fresh) (fun k => k) db ms).2 ++ valueCols (K := K) ms).map (·.1) =
        keys.map (·.1) ++ childKeys ms ++ plainNames ms := by
      simp only [List.map_append, c2, valueCols_names]
    rw [Sql.insert.eq_def]; dsimp only
    refine c1.trans (Steps.trans (Steps.one hf _ t _ ?_ h1 ?_ (by rw [hn]; exact h5) (by rw [hn]; exact h6))
      (insertMulti_steps hf t _ _ h1 ms h7))
    · intro e
      rw [e] at hn
      exact h4 hn.symm
    · intro c hc
      have hm : c.1 ∈ (keys ++ (insertChildren (assign fresh) (fun k => k) db ms).2 ++ valueCols (K := K) ms).map (·.1) :=
        List.mem_map.2 ⟨c, hc, rfl⟩
      rw [hn, List.mem_append, List.mem_append] at hm
      rcases hm with (hm | hm) | hm
      · obtain ⟨d, hd, e⟩ := List.mem_map.1 hm
        exact e ▸ hkc d hd
      · exact childKeys_clean ms h2 _ hm
      · exact plainNames_clean ms h2 _ hm
  | .value .., h => by simp [Good] at h
  | .rows .., h => by simp [Good] at h
theorem insertChildren_steps {fresh : Log V K → Text → K} (hf : Fresh fresh) (db : Log V K) (t : Text) :
    ∀ ms : List (Node V), GoodMembers t ms →
    Steps fresh db (insertChildren (assign fresh) (fun k => k) db ms).1 ∧
      (insertChildren (assign fresh) (fun k => k) db ms).2.map (·.1) = childKeys ms
  | [], _ => ⟨.refl _ _, rfl⟩
  | .ent name t' ms' :: ms, h => by
    have h1 := insert_steps hf [] (by simp) db (.ent name t' ms') h.1
    obtain ⟨h2, h3⟩ := insertChildren_steps hf
      (insert (assign fresh) (fun k => k) [] db (.ent name t' ms')).1 t ms h.2
    rw [insertChildren]
    refine ⟨h1.trans h2, ?_⟩
    simp only [List.map_append, h3]
    rfl
  | .value .. :: ms, h => insertChildren_steps hf db t ms h
  | .rows .. :: ms, h => insertChildren_steps hf db t ms h.2
theorem insertMulti_steps {fresh : Log V K → Text → K} (hf : Fresh fresh) (t : Text) (id : K) (db : Log V K)
    (ht : Clean t) : ∀ ms : List (Node V), GoodMembers t ms →
    Steps fresh db (insertMulti (assign fresh) (fun k => k) t id db ms)
  | [], _ => .refl _ _
  | .rows _ es :: ms, h => by
    rw [insertMulti]
    exact (insertRows_steps hf t id db ht es h.1).trans (insertMulti_steps hf t id _ ht ms h.2)
  | .value .. :: ms, h => insertMulti_steps hf t id db ht ms h
  | .ent .. :: ms, h => insertMulti_steps hf t id db ht ms h.2
theorem insertRows_steps {fresh : Log V K → Text → K} (hf : Fresh fresh) (t : Text) (id : K) (db : Log V K)
    (ht : Clean t) : ∀ es : List (Node V), GoodAll t es →
    Steps fresh db (insertRows (assign fresh) (fun k => k) t id db es)
  | [], _ => .refl _ _
  | e :: es, h => by
    rw [insertRows]
    refine (insert_steps hf [(keyName t, .key id)] ?_ db e h.1).trans (insertRows_steps hf t id _ ht es h.2)
    intro c hc
    simp only [List.mem_singleton] at hc
    subst hc
    exact clean_key ht
end

end Nbdl.SqlDb
