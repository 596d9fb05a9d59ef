import Verif.Address.Props
/-!
# Exactly which addresses are split rightly
-/
namespace Nbdl.Address

theorem infix_iff_drop (sub s : List Byte) : sub <:+: s ↔ ∃ j, sub <+: s.drop j := by
  constructor
  · rintro ⟨a, b, rfl⟩
    refine ⟨a.length, b, ?_⟩
    rw [List.append_assoc, List.drop_left]
  · rintro ⟨j, b, h⟩
    exact ⟨s.take j, b, by rw [List.append_assoc, h, List.take_append_drop]⟩

/-- "://" cannot begin inside a text and end outside it, where another one begins. -/
theorem sep_inside (s t : List Byte) (j : Nat) (hj : j < s.length)
    (h : ascii "://" <+: (s ++ ascii "://" ++ t).drop j) : ascii "://" <:+: s := by
  have h0 : ∀ i x, (ascii "://")[i]? = some x → (s ++ ascii "://" ++ t)[j + i]? = some x := by
    intro i x hx
    obtain ⟨r, hr⟩ := h
    have : ((s ++ ascii "://" ++ t).drop j)[i]? = some x := by
      rw [← hr, List.getElem?_append_left (by
        rcases Nat.lt_or_ge i (ascii "://").length with h | h
        · exact h
        · rw [List.getElem?_eq_none h] at hx; cases hx)]
      exact hx
    rwa [List.getElem?_drop] at this
  by_cases hj3 : j + 3 ≤ s.length
  · refine (infix_iff_drop _ _).2 ⟨j, ?_⟩
    rw [List.append_assoc, List.drop_append_of_le_length (by omega)] at h
    exact List.prefix_of_prefix_length_le h (List.prefix_append _ _)
      (by simp [ascii]; omega)
  · exfalso
    -- the separator begins at `s.length`, which is position 1 or 2 of the one found
    have hc : (s ++ ascii "://" ++ t)[s.length]? = some 58#8 := by
      rw [List.append_assoc, List.getElem?_append_right (Nat.le_refl _)]
      simp [ascii]
    have hcase : s.length = j + 1 ∨ s.length = j + 2 := by omega
    rcases hcase with e | e
    · have h1 := h0 1 47#8 (by decide)
      rw [← e, hc] at h1
      exact absurd h1 (by decide)
    · have h1 := h0 2 47#8 (by decide)
      rw [← e, hc] at h1
      exact absurd h1 (by decide)

theorem find_sep (scheme rest : List Byte) (h : ¬ ascii "://" <:+: scheme) :
    find (ascii "://") (scheme ++ ascii "://" ++ rest) = some scheme.length := by
  rw [find_spec _ _ _ (by decide)]
  refine ⟨⟨rest, ?_⟩, fun j hj hp => h (sep_inside scheme rest j hj hp)⟩
  rw [List.append_assoc, List.drop_left]

theorem splitPort_length (p a : List Byte) :
    (splitPort p a).domain.length + (splitPort p a).port.length ≤ a.length ∧
    ((splitPort p a).domain.length + (splitPort p a).port.length + 1 = a.length ∨
      58#8 ∉ a) := by
  unfold splitPort
  split <;> rename_i h
  · rw [find_spec _ _ _ (by decide)] at h
    rename_i pos
    obtain ⟨⟨r, hr⟩, -⟩ := h
    have hl : pos < a.length := by
      rcases Nat.lt_or_ge pos a.length with h | h
      · exact h
      · rw [List.drop_eq_nil_of_le h] at hr; simp [ascii] at hr
    simp only [List.length_take, List.length_drop]
    omega
  · refine ⟨by simp, .inr fun hm => ?_⟩
    rw [find_none _ _ (by decide)] at h
    obtain ⟨j, hj, e⟩ := List.getElem_of_mem hm
    refine h j ⟨a.drop (j + 1), ?_⟩
    rw [List.drop_eq_getElem_cons hj, e]; rfl

theorem splitPort_exact (p host port : List Byte) :
    ((splitPort p (host ++ 58#8 :: port)).domain = host ∧
      (splitPort p (host ++ 58#8 :: port)).port = port) ↔ 58#8 ∉ host := by
  constructor
  · rintro ⟨h1, -⟩ hm
    unfold splitPort at h1
    split at h1 <;> rename_i hf
    · rename_i pos
      rw [find_spec _ _ _ (by decide)] at hf
      obtain ⟨j, hj, e⟩ := List.getElem_of_mem hm
      have hl := congrArg List.length h1
      simp only [List.length_take, List.length_append, List.length_cons] at hl
      have hjp : j < pos := by omega
      refine hf.2 j hjp ⟨(host ++ 58#8 :: port).drop (j + 1), ?_⟩
      have e2 : j < (host ++ 58#8 :: port).length := by simp; omega
      have e3 := List.drop_eq_getElem_cons e2
      rw [List.getElem_append_left hj, e] at e3
      rw [e3]; rfl
    · have hl := congrArg List.length h1
      simp at hl
  · intro hh
    have : find (ascii ":") (host ++ 58#8 :: port) = some host.length := by
      rw [find_spec _ _ _ (by decide)]
      exact ⟨⟨port, by rw [List.drop_left]; rfl⟩, fun j hj => no_colon_prefix [] host _ hh j hj⟩
    unfold splitPort
    rw [this]
    simp

/-- C55, exactly: of `scheme://host:port` the host and the port are found just when "://" is not in
the scheme and no colon in the host. -/
theorem split_exact (scheme host port : List Byte) :
    ((splitAddress (scheme ++ ascii "://" ++ (host ++ 58#8 :: port))).domain = host ∧
      (splitAddress (scheme ++ ascii "://" ++ (host ++ 58#8 :: port))).port = port) ↔
    ¬ ascii "://" <:+: scheme ∧ 58#8 ∉ host := by
  by_cases hs : ascii "://" <:+: scheme
  · simp only [hs, not_true_eq_false, false_and, iff_false]
    rintro ⟨h1, h2⟩
    obtain ⟨j, hj⟩ := (infix_iff_drop _ _).1 hs
    have hjl : j < scheme.length := by
      rcases Nat.lt_or_ge j scheme.length with h | h
      · exact h
      · rw [List.drop_eq_nil_of_le h] at hj; simp [ascii] at hj
    have hp : ascii "://" <+: (scheme ++ ascii "://" ++ (host ++ 58#8 :: port)).drop j := by
      rw [List.append_assoc, List.drop_append_of_le_length (by omega)]
      exact hj.trans (List.prefix_append _ _)
    have hlen : j + 3 ≤ scheme.length := by
      have := hj.length_le
      simp [ascii] at this; omega
    cases hf : find (ascii "://") (scheme ++ ascii "://" ++ (host ++ 58#8 :: port)) with
    | none => exact (find_none _ _ (by decide)).1 hf j hp
    | some pos =>
      have hpos : pos ≤ j := by
        rcases Nat.lt_or_ge j pos with h | h
        · exact absurd hp (((find_spec _ _ _ (by decide)).1 hf).2 j h)
        · exact h
      rw [splitAddress, hf] at h1 h2
      have hd : (scheme ++ ascii "://" ++ (host ++ 58#8 :: port)).drop (pos + 3)
          = scheme.drop (pos + 3) ++ (ascii "://" ++ (host ++ 58#8 :: port)) := by
        rw [List.append_assoc, List.drop_append_of_le_length (by omega)]
      simp only [hd] at h1 h2
      rcases (splitPort_length (List.drop pos (scheme ++ ascii "://" ++ (host ++ 58#8 :: port)))
        (scheme.drop (pos + 3) ++ (ascii "://" ++ (host ++ 58#8 :: port)))).2 with h | h
      · rw [h1, h2] at h
        simp [ascii] at h
        omega
      · exact h (by simp)
  · rw [splitAddress, find_sep scheme _ hs]
    have hd : (scheme ++ ascii "://" ++ (host ++ 58#8 :: port)).drop (scheme.length + 3)
        = host ++ 58#8 :: port := by
      have : scheme.length + 3 = (scheme ++ ascii "://").length := by simp [ascii]
      rw [this, List.drop_left]
    simp only [hd]
    rw [splitPort_exact]
    simp [hs]

/-- C55, exactly: of `host:port`, without a scheme, they are found just when "://" is nowhere in it
and no colon is in the host. -/
theorem split_no_scheme_exact (host port : List Byte) :
    ((splitAddress (host ++ 58#8 :: port)).domain = host ∧
      (splitAddress (host ++ 58#8 :: port)).port = port) ↔
    ¬ ascii "://" <:+: (host ++ 58#8 :: port) ∧ 58#8 ∉ host := by
  rw [splitAddress]
  cases hf : find (ascii "://") (host ++ 58#8 :: port) with
  | none =>
    simp only
    rw [splitPort_exact]
    have : ¬ ascii "://" <:+: (host ++ 58#8 :: port) := by
      rw [infix_iff_drop]
      rintro ⟨j, hj⟩
      exact (find_none _ _ (by decide)).1 hf j hj
    simp [this]
  | some pos =>
    have hp := ((find_spec _ _ _ (by decide)).1 hf).1
    have hi : ascii "://" <:+: (host ++ 58#8 :: port) := (infix_iff_drop _ _).2 ⟨pos, hp⟩
    simp only [hi, not_true_eq_false, false_and, iff_false]
    rintro ⟨h1, h2⟩
    have hl := (splitPort_length ((host ++ 58#8 :: port).drop pos)
      ((host ++ 58#8 :: port).drop (pos + 3))).1
    rw [h1, h2] at hl
    have := hp.length_le
    simp [ascii] at this hl
    omega

example : ¬ ascii "://" <:+: ascii "wss:" ∧ 58#8 ∉ ascii "example.org" := by
  constructor
  · rw [infix_iff_drop]
    rintro ⟨j, hj⟩
    have := hj.length_le
    simp [ascii] at this
    have h : j = 0 ∨ j = 1 := by omega
    rcases h with rfl | rfl <;> revert hj <;> decide
  · decide

end Nbdl.Address
