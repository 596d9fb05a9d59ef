import Verif.SqlDb.Props
/-!
# With which keys an update changes the row it is for (C129)
-/
namespace Nbdl.SqlDb
open Sql Sql.Spec Spec
variable {V K : Type} [DecidableEq V] [DecidableEq K]

/-- What an update by one key does, under whatever name it is given. -/
theorem modify_one (fresh : Log V K → Text → K) (db : Log V K) (table : Text)
    (ms : List (Node V)) (hg : Good [] (.ent [] table ms)) (hflat : ∀ m ∈ ms, ∃ n v, m = .value n v)
    (key : Text) (hkc : Clean key) (k : K) :
    modify fresh db table ms [⟨key, k, some table⟩] =
      some (updateFirst (fun e => e.1.table = table && cell e key = some (.key k))
        (fun e => setCols e (valueCols ms)) db) := by
  obtain ⟨g1, g2, g3, g4, g5, g6, -⟩ := hg
  have hck : childKeys ms = [] := by
    rw [childKeys, List.filterMap_eq_nil_iff]
    intro m hm
    obtain ⟨n, v, rfl⟩ := hflat m hm
    rfl
  rw [hck] at g4 g5 g6
  simp only [List.nil_append] at g4 g5 g6
  have hup : update table ms [⟨key, k, some table⟩] =
      some (table, valueCols ms, [(key, k)]) := by
    rw [update, if_pos (by simp [isPrimaryKey]), if_neg]
    · rfl
    · simp only [List.any_eq_true, not_exists, not_and]
      intro m hm
      obtain ⟨n, v, rfl⟩ := hflat m hm
      simp [Node.isNested]
  have hvn : (valueCols (K := K) ms).map (·.1) = plainNames ms := valueCols_names ms
  obtain ⟨text, h1, h2⟩ := update_statement_partial (V := Col V K) table (valueCols ms)
    [(key, .key k)]
    (by intro e; rw [e] at hvn; exact g4 hvn.symm) (by simp) g1
    (by
      intro c hc
      exact plainNames_clean ms g2 _ (hvn ▸ List.mem_map.2 ⟨c, hc, rfl⟩))
    (by
      intro c hc
      rw [List.mem_singleton] at hc
      subst hc
      exact hkc)
  have hread : read text = some (.update table (plainNames ms) key) := by
    refine read_update text table _ _ g4 ?_
    rw [h2, ← hvn, List.map_map]; rfl
  have hkn : keyName table = table ++ "_id".toList := rfl
  rw [modify, hup]
  show ((updateStmt table (valueCols ms) [(key, Col.key k)]).bind (change fresh db)) = _
  rw [h1]
  show change fresh db (text, (valueCols ms).map (·.2) ++ [.key k]) = _
  rw [change, hread]
  dsimp only
  have hlen : (plainNames ms).length = ((valueCols (K := K) ms).map (·.2)).length := by rw [← hvn]; simp
  rw [execUpdate, hlen, List.drop_left]
  dsimp only
  have hzip : (plainNames ms).zip ((valueCols (K := K) ms).map (·.2) ++ [.key k]) = valueCols ms := by
    have h := List.zip_append (l₁ := plainNames ms) (r₁ := []) (l₂ := (valueCols (K := K) ms).map (·.2))
      (r₂ := [.key k]) hlen
    simp only [List.append_nil, List.zip_nil_left] at h
    rw [h, ← hvn, zip_unzip]
  rw [if_pos ⟨g5, by rw [hkn]; exact g6⟩, hzip]

/-- C129: for an entity without nested ones and any arguments with keys, an update changes in every
database the row with the key `k`, and nothing else, exactly if the only argument is `k`, as the primary
key of the table and under its name.  All others are refused by the compiler or by the database, or leave the
row as it was. -/
theorem update_exact (fresh : Log V K → Text → K) (table : Text)
    (ms : List (Node V)) (hg : Good [] (.ent [] table ms)) (hflat : ∀ m ∈ ms, ∃ n v, m = .value n v)
    (keys : List (KeyArg K)) (hkeys : ∀ a ∈ keys, Clean a.name) (k : K) :
    (∀ db : Log V K, Keyed db → ∃ db', modify fresh db table ms keys = some db' ∧ Changed db db' table k ms)
    ↔ keys = [⟨table ++ "_id".toList, k, some table⟩] := by
  constructor
  · intro h
    have hrow : Keyed [((⟨table, []⟩ : Row V K), k)] := by simp [Keyed]
    obtain ⟨db', hm, hc⟩ := h _ hrow
    have g := hg
    obtain ⟨g1, g2, -, g4, -, g6, -⟩ := g
    have hck : childKeys ms = [] := by
      rw [childKeys, List.filterMap_eq_nil_iff]
      intro m hm
      obtain ⟨n, v, rfl⟩ := hflat m hm
      rfl
    rw [hck] at g4 g6
    simp only [List.nil_append] at g4 g6
    match keys, hkeys, hm with
    | [], _, hm => rw [modify, update, if_neg (by simp)] at hm; cases hm
    | [⟨key, x, p⟩], hkeys, hm =>
      by_cases hp : p = some table
      · subst hp
        rw [modify_one fresh _ table ms hg hflat key (hkeys ⟨key, x, some table⟩ (List.mem_singleton.mpr rfl)) x] at hm
        by_cases hq : cell ((⟨table, []⟩ : Row V K), k) key = some (.key x)
        · simp only [cell] at hq
          split at hq
          · rename_i e
            simp only [Option.some.injEq, Col.key.injEq] at hq
            subst hq; subst e
            rfl
          · simp at hq
        · simp only [updateFirst, hq, decide_false, Bool.and_false, Bool.false_eq_true, if_false,
            Option.some.injEq] at hm
          subst hm
          exfalso
          obtain ⟨e', he, -, -, -, hs⟩ := hc.2 0 _ rfl
          simp only [List.getElem?_cons_zero, Option.some.injEq] at he
          subst he
          have hs := hs ⟨rfl, rfl⟩
          match ms, hflat, g4, g6, hs with
          | [], _, g4, _, _ => exact g4 rfl
          | m :: ms, hflat, _, g6, hs =>
            obtain ⟨n, v, rfl⟩ := hflat m (by simp)
            have hn : n ≠ keyName table := by
              intro e
              apply g6
              rw [e]
              simp [plainNames, keyName]
            have := hs n
            simp [cell, hn, valueOf] at this
      · rw [modify, update, if_neg (by simpa [isPrimaryKey] using hp)] at hm; cases hm
    | a :: b :: keys, hkeys, hm =>
      rw [several_keys_violated fresh _ table ms (a :: b :: keys) g1 (fun n hn => (g2 n hn).1) hkeys (by simp)] at hm
      cases hm
  · rintro rfl db hk
    exact update_partial fresh hk table ms hg hflat k

/-- A foreign key of another row of the table. -/
example : Clean "boo_id".toList ∧ Clean "foo_id".toList
    ∧ (⟨"boo_id".toList, 1, some "foo".toList⟩ : KeyArg Nat) ≠ ⟨"foo".toList ++ "_id".toList, 1, some "foo".toList⟩ := by
  refine ⟨by simp only [Clean]; decide, by simp only [Clean]; decide, fun h => ?_⟩
  simp only [KeyArg.mk.injEq] at h
  exact absurd h.1 (by decide)

end Nbdl.SqlDb
