import Verif.Sql.Props
/-!
# Inserting with keys that are changed by being moved from

C50.
-/
namespace Nbdl.Sql
namespace Spec
variable {V K : Type}

mutual
/-- Like `Stored`, but the elements of a container have as foreign keys, one after the other, the id, what is left of it
after a move, what is left of that after a move, and so on. -/
def StoredMoved (mv : K → K) (log : Log V K) (keys : List (Text × Col V K)) (id : K) : Node V → Prop
  | .ent _ table ms => ∃ ids, (⟨table, keys ++ ids ++ plain ms⟩, id) ∈ log ∧
      StoredMovedChildren mv log ids ms ∧ StoredMovedRows mv log table id ms
  | _ => False
def StoredMovedChildren (mv : K → K) (log : Log V K) (ids : List (Text × Col V K)) : List (Node V) → Prop
  | [] => ids = []
  | .ent name t ms' :: ms => ∃ k rest, ids = (keyName name, .key k) :: rest ∧
      StoredMoved mv log [] k (.ent name t ms') ∧ StoredMovedChildren mv log rest ms
  | .value .. :: ms => StoredMovedChildren mv log ids ms
  | .rows .. :: ms => StoredMovedChildren mv log ids ms
def StoredMovedRows (mv : K → K) (log : Log V K) (table : Text) (id : K) : List (Node V) → Prop
  | [] => True
  | .rows _ es :: ms => StoredMovedAll mv log table id es ∧ StoredMovedRows mv log table id ms
  | .value .. :: ms => StoredMovedRows mv log table id ms
  | .ent .. :: ms => StoredMovedRows mv log table id ms
def StoredMovedAll (mv : K → K) (log : Log V K) (table : Text) (id : K) : List (Node V) → Prop
  | [] => True
  | e :: es => (∃ k, StoredMoved mv log [(keyName table, .key id)] k e) ∧ StoredMovedAll mv log table (mv id) es
end

mutual
/-- An entity in which no container, at any depth, holds more than one element. -/
def Short : Node V → Prop
  | .ent _ _ ms => ShortMembers ms
  | _ => True
def ShortMembers : List (Node V) → Prop
  | [] => True
  | .value .. :: ms => ShortMembers ms
  | .ent n t ms' :: ms => Short (.ent n t ms') ∧ ShortMembers ms
  | .rows _ es :: ms => es.length ≤ 1 ∧ ShortAll es ∧ ShortMembers ms
def ShortAll : List (Node V) → Prop
  | [] => True
  | e :: es => Short e ∧ ShortAll es
end

end Spec
open Spec
variable {V K : Type}

mutual
theorem StoredMoved.mono {mv : K → K} {log log' : Log V K} (hl : ∀ x ∈ log, x ∈ log') (keys : List (Text × Col V K))
    (id : K) : ∀ e : Node V, StoredMoved mv log keys id e → StoredMoved mv log' keys id e
  | .ent _ table ms, h => by
    obtain ⟨ids, h1, h2, h3⟩ := h
    exact ⟨ids, hl _ h1, StoredMovedChildren.mono hl ids ms h2, StoredMovedRows.mono hl table id ms h3⟩
  | .value .., h => h
  | .rows .., h => h
theorem StoredMovedChildren.mono {mv : K → K} {log log' : Log V K} (hl : ∀ x ∈ log, x ∈ log')
    (ids : List (Text × Col V K)) : ∀ ms : List (Node V), StoredMovedChildren mv log ids ms →
      StoredMovedChildren mv log' ids ms
  | [], h => h
  | .ent name t ms' :: ms, h => by
    obtain ⟨k, rest, h1, h2, h3⟩ := h
    exact ⟨k, rest, h1, StoredMoved.mono hl _ k _ h2, StoredMovedChildren.mono hl rest ms h3⟩
  | .value .. :: ms, h => StoredMovedChildren.mono hl ids ms h
  | .rows .. :: ms, h => StoredMovedChildren.mono hl ids ms h
theorem StoredMovedRows.mono {mv : K → K} {log log' : Log V K} (hl : ∀ x ∈ log, x ∈ log') (table : Text) (id : K) :
    ∀ ms : List (Node V), StoredMovedRows mv log table id ms → StoredMovedRows mv log' table id ms
  | [], _ => trivial
  | .rows _ es :: ms, h => ⟨StoredMovedAll.mono hl table id es h.1, StoredMovedRows.mono hl table id ms h.2⟩
  | .value .. :: ms, h => StoredMovedRows.mono hl table id ms h
  | .ent .. :: ms, h => StoredMovedRows.mono hl table id ms h
theorem StoredMovedAll.mono {mv : K → K} {log log' : Log V K} (hl : ∀ x ∈ log, x ∈ log') (table : Text) (id : K) :
    ∀ es : List (Node V), StoredMovedAll mv log table id es → StoredMovedAll mv log' table id es
  | [], _ => trivial
  | e :: es, h => by
    obtain ⟨⟨k, h1⟩, h2⟩ := h
    exact ⟨⟨k, StoredMoved.mono hl _ k e h1⟩, StoredMovedAll.mono hl table (mv id) es h2⟩
end

mutual
theorem insert_mv (db : Log V K → Row V K → K) (mv : K → K) (keys : List (Text × Col V K)) (log : Log V K) :
    ∀ e : Node V, Proper e →
    ∃ new id, insert db mv keys log e = (log ++ new, some id) ∧ new.length = size e ∧
      StoredMoved mv (log ++ new) keys id e
  | .ent name table ms, hp => by
    obtain ⟨n1, cs, h1, h2, h3⟩ := insertChildren_mv db mv log ms hp
    simp only [insert, h1]
    generalize hrow : (⟨table, keys ++ cs ++ valueCols ms⟩ : Row V K) = row
    generalize hid : db (log ++ n1) row = id
    obtain ⟨n2, h6, h7, h8⟩ := insertMulti_mv db mv table id (log ++ n1 ++ [(row, id)]) ms hp
    refine ⟨n1 ++ [(row, id)] ++ n2, id, by rw [h6]; simp, ?_, ?_⟩
    · simp only [List.length_append, List.length_singleton, h2, h7, size, size_split]; omega
    · refine ⟨cs, ?_, ?_, ?_⟩
      · rw [← valueCols_plain, hrow]; simp
      · exact StoredMovedChildren.mono (by simp; grind) cs ms h3
      · have := h8; simpa using this
  | .value .., hp => by simp [Proper] at hp
  | .rows .., hp => by simp [Proper] at hp
theorem insertChildren_mv (db : Log V K → Row V K → K) (mv : K → K) (log : Log V K) :
    ∀ ms : List (Node V), ProperMembers ms →
    ∃ new cs, insertChildren db mv log ms = (log ++ new, cs) ∧ new.length = sizeChildren ms ∧
      StoredMovedChildren mv (log ++ new) cs ms
  | [], _ => ⟨[], [], by simp [insertChildren], rfl, rfl⟩
  | .ent name t ms' :: ms, hp => by
    obtain ⟨n1, id, h1, h2, h3⟩ := insert_mv db mv [] log (.ent name t ms') hp.1
    obtain ⟨n2, cs, g1, g2, g3⟩ := insertChildren_mv db mv (log ++ n1) ms hp.2
    simp only [insertChildren, h1, g1]
    refine ⟨n1 ++ n2, (keyName name, .key id) :: cs, by simp, by simp [sizeChildren, h2, g2], ?_⟩
    refine ⟨id, cs, rfl, ?_, by simpa using g3⟩
    exact StoredMoved.mono (by simp; grind) _ _ _ h3
  | .value .. :: ms, hp => by
    obtain ⟨new, cs, h⟩ := insertChildren_mv db mv log ms hp
    exact ⟨new, cs, h⟩
  | .rows .. :: ms, hp => by
    obtain ⟨new, cs, h⟩ := insertChildren_mv db mv log ms hp.2
    exact ⟨new, cs, h⟩
theorem insertMulti_mv (db : Log V K → Row V K → K) (mv : K → K) (table : Text) (id : K) (log : Log V K) :
    ∀ ms : List (Node V), ProperMembers ms →
    ∃ new, insertMulti db mv table id log ms = log ++ new ∧ new.length = sizeRows ms ∧
      StoredMovedRows mv (log ++ new) table id ms
  | [], _ => ⟨[], by simp [insertMulti], rfl, trivial⟩
  | .rows _ es :: ms, hp => by
    obtain ⟨n1, h1, h2, h3⟩ := insertRows_mv db mv table id log es hp.1
    obtain ⟨n2, g1, g2, g3⟩ := insertMulti_mv db mv table id (log ++ n1) ms hp.2
    refine ⟨n1 ++ n2, by simp [insertMulti, h1, g1], by simp [sizeRows, h2, g2], ⟨?_, by simpa using g3⟩⟩
    exact StoredMovedAll.mono (by simp; grind) _ _ _ h3
  | .value .. :: ms, hp => by
    obtain ⟨new, h⟩ := insertMulti_mv db mv table id log ms hp
    exact ⟨new, h⟩
  | .ent .. :: ms, hp => by
    obtain ⟨new, h⟩ := insertMulti_mv db mv table id log ms hp.2
    exact ⟨new, h⟩
theorem insertRows_mv (db : Log V K → Row V K → K) (mv : K → K) (table : Text) (id : K) (log : Log V K) :
    ∀ es : List (Node V), ProperAll es →
    ∃ new, insertRows db mv table id log es = log ++ new ∧ new.length = sizeAll es ∧
      StoredMovedAll mv (log ++ new) table id es
  | [], _ => ⟨[], by simp [insertRows], rfl, trivial⟩
  | e :: es, hp => by
    obtain ⟨n1, k, h1, h2, h3⟩ := insert_mv db mv [(keyName table, .key id)] log e hp.1
    obtain ⟨n2, g1, g2, g3⟩ := insertRows_mv db mv table (mv id) (log ++ n1) es hp.2
    refine ⟨n1 ++ n2, by simp [insertRows, h1, g1], by simp [sizeAll, h2, g2], ⟨⟨k, ?_⟩, by simpa using g3⟩⟩
    exact StoredMoved.mono (by simp; grind) _ _ _ h3
end

/-- C50, for keys of every kind: inserting an entity of any depth adds one row for each of its entities.  Every child and
every element of a container has its row, and the ids in it are the right ones, except for the foreign keys of the
elements of a container after the first: these are what is left of the id after as many moves as there are elements
before. -/
theorem insert_moved_exact (db : Log V K → Row V K → K) (mv : K → K) (keys : List (Text × Col V K)) (log : Log V K)
    (e : Node V) (hp : Proper e) :
    ∃ new id, insert db mv keys log e = (log ++ new, some id) ∧ new.length = size e ∧
      StoredMoved mv (log ++ new) keys id e :=
  insert_mv db mv keys log e hp

mutual
theorem insert_short (db : Log V K → Row V K → K) (mv : K → K) (keys : List (Text × Col V K)) (log : Log V K) :
    ∀ e : Node V, Short e → insert db mv keys log e = insert db (fun k => k) keys log e
  | .ent name table ms, h => by
    simp only [insert]
    rw [insertChildren_short db mv log ms h, insertMulti_short db mv table _ _ ms h]
  | .value .., _ => by rw [insert, insert] <;> simp
  | .rows .., _ => by rw [insert, insert] <;> simp
theorem insertChildren_short (db : Log V K → Row V K → K) (mv : K → K) (log : Log V K) :
    ∀ ms : List (Node V), ShortMembers ms → insertChildren db mv log ms = insertChildren db (fun k => k) log ms
  | [], _ => by simp only [insertChildren]
  | .ent name t ms' :: ms, h => by
    simp only [insertChildren]
    rw [insert_short db mv [] log (.ent name t ms') h.1, insertChildren_short db mv _ ms h.2]
  | .value .. :: ms, h => by
    simp only [insertChildren]
    exact insertChildren_short db mv log ms h
  | .rows .. :: ms, h => by
    simp only [insertChildren]
    exact insertChildren_short db mv log ms h.2.2
theorem insertMulti_short (db : Log V K → Row V K → K) (mv : K → K) (table : Text) (id : K) (log : Log V K) :
    ∀ ms : List (Node V), ShortMembers ms →
      insertMulti db mv table id log ms = insertMulti db (fun k => k) table id log ms
  | [], _ => by simp only [insertMulti]
  | .rows _ es :: ms, h => by
    simp only [insertMulti]
    rw [insertRows_short db mv table id log es h.1 h.2.1, insertMulti_short db mv table id _ ms h.2.2]
  | .value .. :: ms, h => by
    simp only [insertMulti]
    exact insertMulti_short db mv table id log ms h
  | .ent .. :: ms, h => by
    simp only [insertMulti]
    exact insertMulti_short db mv table id log ms h.2
theorem insertRows_short (db : Log V K → Row V K → K) (mv : K → K) (table : Text) (id : K) (log : Log V K) :
    ∀ es : List (Node V), es.length ≤ 1 → ShortAll es →
      insertRows db mv table id log es = insertRows db (fun k => k) table id log es
  | [], _, _ => by simp only [insertRows]
  | [e], _, h => by
    simp only [insertRows]
    rw [insert_short db mv [(keyName table, .key id)] log e h.1]
  | _ :: _ :: _, h, _ => by simp at h
end

/-- C50, for keys of every kind: if no container holds more than one element, everything is as it should be.
Partial: longer containers, for keys that do not survive being moved from. -/
theorem insert_short_partial (db : Log V K → Row V K → K) (mv : K → K) (keys : List (Text × Col V K)) (log : Log V K)
    (e : Node V) (hp : Proper e) (hs : Short e) (hk : KeysIn log keys) (hr : RefsOk log) :
    ∃ new id, insert db mv keys log e = (log ++ new, some id) ∧ new.length = size e ∧
      Stored (log ++ new) keys id e ∧ RefsOk (log ++ new) := by
  rw [insert_short db mv keys log e hs]
  exact insert_entity_partial db keys log e hp hk hr

/-- C50 fails whenever moving changes a key: of any two elements of a container of the entity, the second is inserted with
what the first has left of the id, so if this is no id of a row, the row refers to nothing. -/
theorem second_row_violated (db : Log V K → Row V K → K) (mv : K → K) (name table n t1 t2 : Text)
    (v1 v2 : List (Text × V)) (a : Text × Text)
    (h2 : ∀ l1 r1 l2 r2, mv (db l1 r1) ≠ db l2 r2) :
    let e : Node V := .ent name table [.rows n [.ent a.1 t1 (v1.map fun c => .value c.1 c.2),
      .ent a.2 t2 (v2.map fun c => .value c.1 c.2)]]
    ∃ log id, insert db mv [] [] e = (log, some id) ∧ mv id ≠ id ∧ ¬ RefsOk log := by
  have hc : ∀ (vs : List (Text × V)) (l : Log V K), insertChildren db mv l (vs.map fun c => .value c.1 c.2) = (l, []) := by
    intro vs
    induction vs with
    | nil => intro l; simp [insertChildren]
    | cons v vs ih => intro l; rw [List.map_cons]; simp only [insertChildren]; exact ih l
  have hmu : ∀ (vs : List (Text × V)) (t : Text) (i : K) (l : Log V K),
      insertMulti db mv t i l (vs.map fun c => .value c.1 c.2) = l := by
    intro vs
    induction vs with
    | nil => intro t i l; simp [insertMulti]
    | cons v vs ih => intro t i l; rw [List.map_cons]; simp only [insertMulti]; exact ih t i l
  simp only [insert, insertChildren, insertMulti, insertRows, hc, hmu, List.nil_append, List.append_nil]
  refine ⟨_, _, rfl, h2 _ _ _ _, fun hr => ?_⟩
  have h := hr 2 _ _ rfl (keyName table) _ (List.mem_append_left _ (List.mem_singleton.mpr rfl))
  obtain ⟨r, h⟩ := h
  simp only [List.singleton_append, List.cons_append, List.nil_append, List.take_succ_cons, List.take_zero,
    List.mem_cons, Prod.mk.injEq, List.not_mem_nil, or_false] at h
  rcases h with h | h
  · exact h2 _ _ _ _ h.2
  · exact h2 _ _ _ _ h.2

/-- Keys that are texts are empty after they were moved from. -/
example : ∀ (l1 : Log Nat (List Char)) r1 l2 r2, (fun (_ : List Char) => ([] : List Char)) ((fun (log : Log Nat (List Char))
    (_ : Row Nat (List Char)) => ['k', Char.ofNat (48 + log.length)]) l1 r1) ≠
      (fun (log : Log Nat (List Char)) (_ : Row Nat (List Char)) => ['k', Char.ofNat (48 + log.length)]) l2 r2 := by
  intro _ _ _ _ h; cases h

example : Short (.ent "b".toList "boo".toList [.rows "foos".toList [exFoo "f" 5], exFoo "g" 6]) ∧
    Proper (.ent "b".toList "boo".toList [.rows "foos".toList [exFoo "f" 5], exFoo "g" 6]) := by
  simp [Short, ShortMembers, ShortAll, Proper, ProperMembers, ProperAll, exFoo]

end Nbdl.Sql
