import Verif.Sql.Props
/-!
# Exactly when a statement selects by all the keys, and which updates are accepted
-/
namespace Nbdl.Sql
open Spec

variable {V K : Type}

theorem criteria_conjunction_exact (keys : List (List Tok)) (hk : ∀ c ∈ keys, ∀ t ∈ c, t ≠ .char ',') :
    sep (kw ",") (keys.map equation) = conjunction keys ↔ keys.length ≤ 1 := by
  constructor
  · intro h
    apply Nat.le_of_not_lt
    intro h2
    exact criteria_not_conjunction_violated keys h2 keys hk h
  · intro h
    match keys, h with
    | [], _ => rfl
    | [c], _ => rfl

/-- C49, exactly: an update statement changes the row for which all the keys have their values just when
there is one key. -/
theorem update_statement_exact (table : Text) (columns keys : List (Text × V)) (hne : columns ≠ [])
    (hnk : keys ≠ []) (ht : Clean table) (hc : ∀ c ∈ columns, Clean c.1) (hk : ∀ c ∈ keys, Clean c.1) :
    (∃ text, updateStmt table columns keys = some (text, columns.map (·.2) ++ keys.map (·.2)) ∧
      tokens text = kw "UPDATE " ++ [.ident table] ++ kw " SET " ++
        sep (kw ",") (columns.map fun c => equation [.ident c.1]) ++ kw " WHERE " ++
        conjunction (keys.map fun c => [.ident c.1]) ++ kw " LIMIT 1;") ↔ keys.length = 1 := by
  obtain ⟨text, e1, e2⟩ := update_statement_partial table columns keys hne hnk ht hc hk
  have hm : (keys.map fun c => equation [.ident c.1])
      = (keys.map fun c => ([.ident c.1] : List Tok)).map equation := by
    rw [List.map_map]; rfl
  have hl : keys.length ≠ 0 := by simpa using hnk
  have hx := criteria_conjunction_exact (keys.map fun c => ([.ident c.1] : List Tok)) (by
    intro c hcm t htm
    obtain ⟨k, -, rfl⟩ := List.mem_map.1 hcm
    simp only [List.mem_singleton] at htm
    subst htm
    simp)
  rw [List.length_map] at hx
  rw [hm] at e2
  constructor
  · rintro ⟨text', e1', e2'⟩
    rw [e1] at e1'
    simp only [Option.some.injEq, Prod.mk.injEq, and_true] at e1'
    subst e1'
    rw [e2] at e2'
    have h3 := List.append_cancel_left (List.append_cancel_right e2')
    have := hx.1 h3
    omega
  · intro h
    refine ⟨text, e1, ?_⟩
    rw [e2, hx.2 (by omega)]

/-- C49, exactly: a select statement selects the rows for which all the keys have their values just when
there is one key. -/
theorem select_statement_exact (table columns joins : Text) (tc tj : List Tok) (keys : List (Text × V))
    (ts : List (List Tok)) (hne : keys ≠ []) (ht : Clean table) (hcol : IsColumn columns tc)
    (hj : IsColumn joins tj) (hl : ts.length = keys.length)
    (hk : ∀ p ∈ (keys.map (·.1)).zip ts, IsColumn p.1 p.2) (hcomma : ∀ c ∈ ts, ∀ t ∈ c, t ≠ .char ',') :
    (∃ text, selectStmt table columns joins keys = some (text, keys.map (·.2)) ∧
      tokens text = kw "SELECT " ++ tc ++ kw " FROM " ++ [.ident table] ++ tj ++ kw " WHERE " ++
        conjunction ts ++ kw ";") ↔ keys.length = 1 := by
  obtain ⟨text, e1, e2⟩ := select_statement_partial table columns joins tc tj keys ts hne ht hcol hj hl hk
  have h0 : keys.length ≠ 0 := by simpa using hne
  have hx := criteria_conjunction_exact ts hcomma
  constructor
  · rintro ⟨text', e1', e2'⟩
    rw [e1] at e1'
    simp only [Option.some.injEq, Prod.mk.injEq, and_true] at e1'
    subst e1'
    rw [e2] at e2'
    have h3 := List.append_cancel_left (List.append_cancel_right e2')
    have := hx.1 h3
    omega
  · intro h
    refine ⟨text, e1, ?_⟩
    rw [e2, hx.2 (by omega)]

/-- C68, exactly: an update is accepted just when one of the keys is the primary key of the table, whatever
that key is named, and all the members are plain; then it sets all of them in the row selected by all the keys. -/
theorem update_exact (table : Text) (members : List (Node V)) (keys : List (KeyArg K)) :
    update table members keys = some (table, plain members, keys.map fun k => (k.name, k.value))
      ↔ (∃ k ∈ keys, k.primaryOf = some table) ∧ ∀ m ∈ members, ∃ n v, m = .value n v := by
  constructor
  · intro h
    constructor
    · apply Classical.byContradiction
      intro hn
      rw [update, if_neg] at h
      · cases h
      · simp only [Bool.not_eq_true, List.any_eq_false]
        intro k hk
        apply Bool.eq_false_iff.2
        intro hp
        exact hn ⟨k, hk, by simpa [isPrimaryKey] using hp⟩
    · intro m hm
      apply Classical.byContradiction
      intro hn
      rw [update_nested table members keys m hm (fun n v e => hn ⟨n, v, e⟩)] at h
      cases h
  · rintro ⟨⟨k, hk, h1⟩, h2⟩
    have h3 := update_accepted table members keys k hk h1 h2
    obtain ⟨r, hr⟩ := Option.isSome_iff_exists.1 h3
    rw [hr, (update_complete table members keys r hr).1]

example : (∃ k ∈ [(⟨"other".toList, 7, some ("user".toList)⟩ : KeyArg Nat)], k.primaryOf = some ("user".toList))
    ∧ ∀ m ∈ [(.value ("name".toList) 3 : Node Nat)], ∃ n v, m = .value n v := by
  refine ⟨⟨_, List.mem_singleton.2 rfl, rfl⟩, fun m hm => ?_⟩
  rw [List.mem_singleton.1 hm]
  exact ⟨_, _, rfl⟩

end Nbdl.Sql
