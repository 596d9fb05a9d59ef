import Verif.Macros.Spec

/-!
# Lemmas on the declaring macros
-/

namespace Nbdl.Macros

/-! ## The tables are regular: checked row by row -/

theorem members_row : ∀ k : Fin 64, 3 ≤ k.val → members.lookup k.val =
    some ⟨2, true, [.arm 2 [0, 1] false, .tok .comma, .arm (k.val - 1) [0] true]⟩ := by
  decide +kernel

theorem members_two : members.lookup 2 =
    some ⟨2, false, [.tok .member, .tok .lpar, .tok .amp, .par 0, .tok .colons, .par 1,
      .tok .rpar]⟩ := by decide +kernel

theorem memberNames_row : ∀ k : Fin 64, 3 ≤ k.val → memberNames.lookup k.val =
    some ⟨2, true, [.arm 2 [0, 1] false, .arm (k.val - 1) [0] true]⟩ := by
  decide +kernel

theorem memberNames_two : memberNames.lookup 2 =
    some ⟨2, false, [.tok .memberName, .tok .lpar, .par 0, .tok .comma, .par 1,
      .tok .rpar, .tok .semi]⟩ := by decide +kernel

theorem memberIds_row : ∀ k : Fin 64, 4 ≤ k.val → memberIds.lookup k.val =
    some ⟨3, true, [.tok .memberId, .tok .lpar, .tok .amp, .par 0, .tok .colons, .par 2,
      .tok .comma, .par 1, .tok .minus, .tok (.num (k.val - 2)), .tok .rpar,
      .arm (k.val - 1) [0, 1] true]⟩ := by
  decide +kernel

theorem memberIds_three : ∃ v, memberIds.lookup 3 =
    some ⟨3, v, [.tok .memberId, .tok .lpar, .tok .amp, .par 0, .tok .colons, .par 2,
      .tok .comma, .par 1, .tok .minus, .tok (.num 1), .tok .rpar]⟩ := ⟨true, by decide +kernel⟩

theorem keys_row : ∀ k : Fin 64, 2 ≤ k.val → keys.lookup k.val =
    some ⟨1, true, [.tok .kwStatic, .tok .kwConstexpr, .tok .kwAuto, .par 0, .tok .eq, .tok .atC,
      .tok .lt, .tok .length, .tok .minus, .tok (.num k.val), .tok .gt, .tok .semi,
      .arm (k.val - 1) [] true]⟩ := by
  decide +kernel

theorem keys_one : keys.lookup 1 =
    some ⟨1, true, [.tok .kwStatic, .tok .kwConstexpr, .tok .kwAuto, .par 0, .tok .eq, .tok .atC,
      .tok .lt, .tok .length, .tok .minus, .tok (.num 1), .tok .gt, .tok .semi]⟩ := by
  decide +kernel

theorem specNames_row : ∀ k : Fin 64, 2 ≤ k.val → specNames.lookup k.val =
    some ⟨1, true, [.par 0, .tok .comma, .arm (k.val - 1) [] true]⟩ := by
  decide +kernel

theorem specNames_one : specNames.lookup 1 = some ⟨1, true, [.par 0]⟩ := by
  decide +kernel

/-! ## Expansions -/

theorem expand_some {F : Family} {d k : Nat} {args : List Arg} {m : Macro}
    (h : F.lookup k = some m)
    (hn : (if m.variadic then m.params ≤ args.length else m.params = args.length)) :
    expand F (d + 1) k args = (m.body.mapM fun (p : Piece) =>
          match p with
          | .tok t => some [t]
          | .par i => some (args.getD i [])
          | .arm j ps rest =>
            expand F d j (ps.map (fun i => args.getD i []) ++
              if rest then restArgs (args.drop m.params) else [])).map List.flatten := by
  rw [expand, h]
  exact if_pos hn

/-- The arguments of the users are single names. -/
def ids (xs : List (List Byte)) : List Arg := xs.map fun x => [.id x]

theorem ids_length (xs) : (ids xs).length = xs.length := by simp [ids]

theorem members_two_expand (d : Nat) (r : List Tok) (x : List Byte) :
    expand members (d + 1) 2 [r, [.id x]] = some (memberText r x) := by
  rw [expand_some members_two (by simp)]
  simp [memberText]

theorem memberNames_two_expand (d : Nat) (r : List Tok) (x : List Byte) :
    expand memberNames (d + 1) 2 [r, [.id x]] = some (nameText r x) := by
  rw [expand_some memberNames_two (by simp)]
  simp [nameText]

theorem members_expand (r : List Tok) : ∀ (xs : List (List Byte)) (d : Nat),
    1 ≤ xs.length → xs.length ≤ 62 → xs.length < d →
    expand members d (xs.length + 1) (r :: ids xs) = some (commas (xs.map (memberText r)))
  | [], _, h, _, _ => by simp at h
  | [x], d, _, _, hd => by
    obtain ⟨d, rfl⟩ : ∃ e, d = e + 1 := ⟨d - 1, by simp at hd; omega⟩
    exact members_two_expand d r x
  | x :: y :: ys, d, _, h, hd => by
    obtain ⟨d, rfl⟩ : ∃ e, d = e + 2 := ⟨d - 2, by simp at hd; omega⟩
    have row := members_row ⟨(x :: y :: ys).length + 1, by omega⟩ (by simp)
    have ih := members_expand r (y :: ys) (d + 1) (by simp) (by simp at h ⊢; omega)
      (by simp at hd ⊢; omega)
    rw [expand_some row (by simp [ids])]
    simp only [List.length_cons, Nat.add_sub_cancel] at ih ⊢
    have e : restArgs (ids (y :: ys)) = ids (y :: ys) := rfl
    simp [ids] at ih e ⊢
    rw [members_two_expand]
    simp [restArgs, ih, commas]

theorem memberNames_expand (r : List Tok) : ∀ (xs : List (List Byte)) (d : Nat),
    1 ≤ xs.length → xs.length ≤ 62 → xs.length < d →
    expand memberNames d (xs.length + 1) (r :: ids xs) = some (xs.map (nameText r)).flatten
  | [], _, h, _, _ => by simp at h
  | [x], d, _, _, hd => by
    obtain ⟨d, rfl⟩ : ∃ e, d = e + 1 := ⟨d - 1, by simp at hd; omega⟩
    simpa [ids] using memberNames_two_expand d r x
  | x :: y :: ys, d, _, h, hd => by
    obtain ⟨d, rfl⟩ : ∃ e, d = e + 2 := ⟨d - 2, by simp at hd; omega⟩
    have row := memberNames_row ⟨(x :: y :: ys).length + 1, by omega⟩ (by simp)
    have ih := memberNames_expand r (y :: ys) (d + 1) (by simp) (by simp at h ⊢; omega)
      (by simp at hd ⊢; omega)
    rw [expand_some row (by simp [ids])]
    simp only [List.length_cons, Nat.add_sub_cancel] at ih ⊢
    simp [ids] at ih ⊢
    rw [memberNames_two_expand]
    simp [restArgs, ih]

/-- The members from the last `xs.length` on, with the number taken from the size. -/
theorem memberIds_expand (r : List Tok) (n : Nat) : ∀ (xs : List (List Byte)) (d : Nat),
    1 ≤ xs.length → xs.length ≤ 61 → xs.length < d →
    expand memberIds d (xs.length + 2) (r :: [.num n] :: ids xs) =
      some (xs.mapIdx fun i x => idText r x n (xs.length - i)).flatten
  | [], _, h, _, _ => by simp at h
  | [x], d, _, _, hd => by
    obtain ⟨d, rfl⟩ : ∃ e, d = e + 1 := ⟨d - 1, by simp at hd; omega⟩
    obtain ⟨v, hv⟩ := memberIds_three
    rw [show [x].length + 2 = 3 from rfl, expand_some hv (by cases v <;> simp [ids])]
    simp [ids, idText]
  | x :: y :: ys, d, _, h, hd => by
    obtain ⟨d, rfl⟩ : ∃ e, d = e + 2 := ⟨d - 2, by simp at hd; omega⟩
    have row := memberIds_row ⟨(x :: y :: ys).length + 2, by omega⟩ (by simp)
    have ih := memberIds_expand r n (y :: ys) (d + 1) (by simp) (by simp at h ⊢; omega)
      (by simp at hd ⊢; omega)
    rw [expand_some row (by simp [ids])]
    simp only [List.length_cons, Nat.add_sub_cancel] at ih ⊢
    simp [ids] at ih ⊢
    simp [restArgs, ih, idText]

theorem keys_expand : ∀ (xs : List (List Byte)) (d : Nat),
    1 ≤ xs.length → xs.length ≤ 63 → xs.length < d →
    expand keys d xs.length (ids xs) =
      some (xs.mapIdx fun i x => keyText x (xs.length - i)).flatten
  | [], _, h, _, _ => by simp at h
  | [x], d, _, _, hd => by
    obtain ⟨d, rfl⟩ : ∃ e, d = e + 1 := ⟨d - 1, by simp at hd; omega⟩
    rw [show [x].length = 1 from rfl, expand_some keys_one (by simp [ids])]
    simp [ids, keyText]
  | x :: y :: ys, d, _, h, hd => by
    obtain ⟨d, rfl⟩ : ∃ e, d = e + 2 := ⟨d - 2, by simp at hd; omega⟩
    have row := keys_row ⟨(x :: y :: ys).length, by omega⟩ (by simp)
    have ih := keys_expand (y :: ys) (d + 1) (by simp) (by simp at h ⊢; omega)
      (by simp at hd ⊢; omega)
    rw [expand_some row (by simp [ids])]
    simp only [List.length_cons, Nat.add_sub_cancel] at ih ⊢
    simp [ids] at ih ⊢
    simp [restArgs, ih, keyText]

theorem specNames_expand : ∀ (xs : List (List Byte)) (d : Nat),
    1 ≤ xs.length → xs.length ≤ 63 → xs.length < d →
    expand specNames d xs.length (ids xs) = some (commas (ids xs))
  | [], _, h, _, _ => by simp at h
  | [x], d, _, _, hd => by
    obtain ⟨d, rfl⟩ : ∃ e, d = e + 1 := ⟨d - 1, by simp at hd; omega⟩
    rw [show [x].length = 1 from rfl, expand_some specNames_one (by simp [ids])]
    simp [ids, commas]
  | x :: y :: ys, d, _, h, hd => by
    obtain ⟨d, rfl⟩ : ∃ e, d = e + 2 := ⟨d - 2, by simp at hd; omega⟩
    have row := specNames_row ⟨(x :: y :: ys).length, by omega⟩ (by simp)
    have ih := specNames_expand (y :: ys) (d + 1) (by simp) (by simp at h ⊢; omega)
      (by simp at hd ⊢; omega)
    rw [expand_some row (by simp [ids])]
    simp only [List.length_cons, Nat.add_sub_cancel] at ih ⊢
    simp [ids] at ih ⊢
    simp [restArgs, ih, commas]

/-! ## Counting and splitting -/

theorem rseqN_get : ∀ i : Fin 64, rseqN[i.val]? = some [.num (63 - i.val)] := by
  decide +kernel

theorem narg_small {args : List Arg} (h : args.length ≤ 63) :
    narg args = some [.num args.length] := by
  unfold narg
  rw [List.getElem?_append_right h]
  have := rseqN_get ⟨63 - args.length, by omega⟩
  simp only at this
  rw [this]
  have : 63 - (63 - args.length) = args.length := by omega
  rw [this]

theorem narg_large {args : List Arg} (h : 63 < args.length) : narg args = args[63]? := by
  unfold narg
  rw [List.getElem?_append_left h]

theorem splitAux_closes : ∀ (r : List Tok) (d : Nat), closes d r = true → splitAux d r = [r]
  | [], _, _ => rfl
  | t :: r, d, h => by
    cases t with
    | lpar => have ih := splitAux_closes r (d + 1) h; cases d <;> simp [splitAux, ih]
    | rpar =>
      cases d with
      | zero => simp [closes] at h
      | succ d => have ih := splitAux_closes r d h; simp [splitAux, ih]
    | comma =>
      cases d with
      | zero => simp [closes] at h
      | succ d => have ih := splitAux_closes r (d + 1) h; simp [splitAux, ih]
    | _ =>
      have ih := splitAux_closes r d (by simpa [closes] using h)
      simp [splitAux, ih]

theorem splitAux_closes_comma (s : List Tok) : ∀ (r : List Tok) (d : Nat), closes d r = true →
    splitAux d (r ++ .comma :: s) = r :: splitAux 0 s
  | [], d, h => by
    cases d with
    | zero => simp [splitAux]
    | succ d => simp [closes] at h
  | t :: r, d, h => by
    cases t with
    | lpar => have ih := splitAux_closes_comma s r (d + 1) h; cases d <;> simp [splitAux, ih]
    | rpar =>
      cases d with
      | zero => simp [closes] at h
      | succ d => have ih := splitAux_closes_comma s r d h; simp [splitAux, ih]
    | comma =>
      cases d with
      | zero => simp [closes] at h
      | succ d => have ih := splitAux_closes_comma s r (d + 1) h; simp [splitAux, ih]
    | _ =>
      have ih := splitAux_closes_comma s r d (by simpa [closes] using h)
      simp [splitAux, ih]

theorem splitAux_plain (r : List Tok) (h : Plain r) : splitArgs r = [r] := splitAux_closes r 0 h

theorem split_comma (r s : List Tok) (h : Plain r) : splitArgs (r ++ .comma :: s) = r :: splitArgs s :=
  splitAux_closes_comma s r 0 h

theorem plain_id (x : List Byte) : Plain [.id x] := by simp [Plain, closes]

theorem split_written : ∀ (xs : List (List Byte)) (r : List Tok), Plain r →
    splitArgs (written r xs) = r :: ids xs
  | [], r, h => by simpa [written, ids] using splitAux_plain r h
  | x :: xs, r, h => by
    have ih := split_written xs [.id x] (plain_id x)
    simp only [written, List.map_cons, List.flatten_cons, List.cons_append, List.nil_append] at ih ⊢
    rw [split_comma r _ h, ih]
    rfl

/-! ## Meta structs -/

theorem perm_of_subset : ∀ (l₁ l₂ : List Nat), l₁.Nodup → (∀ a ∈ l₁, a ∈ l₂) →
    l₂.length = l₁.length → l₂.Perm l₁
  | [], l₂, _, _, h => by simp at h; simp [h]
  | a :: l₁, l₂, hn, hs, hl => by
    have ha : a ∈ l₂ := hs a (by simp)
    have hp := List.perm_cons_erase ha
    have ih := perm_of_subset l₁ (l₂.erase a) (List.nodup_cons.1 hn).2
      (fun b hb => by
        have hne : b ≠ a := fun e => (List.nodup_cons.1 hn).1 (e ▸ hb)
        exact (List.mem_erase_of_ne hne).2 (hs b (by simp [hb])))
      (by rw [List.length_erase_of_mem ha, hl]; simp)
    exact hp.trans (ih.cons a)

theorem atKey_mem {V : Type} {pairs : List (Nat × V)} {k : Nat} {v : V}
    (h : atKey pairs k = some v) : (k, v) ∈ pairs := by
  unfold atKey at h
  split at h
  · rename_i p hp
    have hm : p ∈ pairs.filter (fun p => p.1 == k) := by simp [hp]
    simp at hm h
    rw [← hm.2, ← h]
    exact hm.1
  · simp at h

theorem atKey_nodup {V : Type} : ∀ {pairs : List (Nat × V)}, (pairs.map Prod.fst).Nodup →
    ∀ {k v}, (k, v) ∈ pairs → atKey pairs k = some v
  | [], _, _, _, h => by simp at h
  | (a, w) :: pairs, hn, k, v, h => by
    simp only [List.map_cons, List.nodup_cons] at hn
    rcases List.mem_cons.1 h with h | h
    · cases h
      have e : pairs.filter (fun p => p.1 == a) = [] := by
        rw [List.filter_eq_nil_iff]
        intro p hp hk
        simp at hk
        exact hn.1 (hk ▸ List.mem_map_of_mem hp)
      simp [atKey, e]
    · have hne : a ≠ k := fun e => hn.1 (e ▸ List.mem_map_of_mem (f := Prod.fst) h)
      have ih := atKey_nodup hn.2 h
      simpa [atKey, hne] using ih

theorem mapM_all {α β : Type} {f : α → Option β} : ∀ {l : List α} {r : List β},
    l.mapM f = some r → r.length = l.length ∧ ∀ (i : Nat) (a : α), l[i]? = some a → f a = r[i]? ∧ (f a).isSome
  | [], r, h => by simp at h; simp [h]
  | a :: l, r, h => by
    simp only [List.mapM_cons, Option.pure_def, Option.bind_eq_bind, Option.bind_eq_some_iff] at h
    obtain ⟨b, hb, r', hr, e⟩ := h
    cases e
    have ih := mapM_all hr
    refine ⟨by simp [ih.1], fun i c hc => ?_⟩
    cases i with
    | zero => simp at hc; subst hc; simp [hb]
    | succ i => simpa using ih.2 i c (by simpa using hc)

theorem mapM_exists {α β : Type} {f : α → Option β} : ∀ {l : List α},
    (∀ a ∈ l, ∃ b, f a = some b) → ∃ r, l.mapM f = some r
  | [], _ => ⟨[], by simp⟩
  | a :: l, h => by
    obtain ⟨b, hb⟩ := h a (by simp)
    obtain ⟨r, hr⟩ := mapM_exists (fun c hc => h c (by simp [hc]) : ∀ c ∈ l, ∃ b, f c = some b)
    exact ⟨b :: r, by simp [hb, hr]⟩

end Nbdl.Macros
