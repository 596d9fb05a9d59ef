import Verif.Path.Model
/-!
# Properties of composed stores and paths (C43, C44)
-/
namespace Nbdl.Path
variable {K V N A : Type} [DecidableEq K] (ops : Ops K V N A)

/-! ## Helpers -/

omit [DecidableEq K] in
theorem hasUnit_store : ∀ (s : Store K V N), hasUnit s = true → isStore s = true
  | .alias s, h => hasUnit_store s h
  | .variant _, _ | .table _, _ => rfl
  | .value _, h | .notInSet, h | .state _, h | .comp .., h | .iter .., h | .net _, h => by simp [hasUnit] at h

omit [DecidableEq K] in
theorem hasUnit_state : ∀ (s : Store K V N), hasUnit s = true → isState s = false
  | .alias s, h => hasUnit_state s h
  | .variant _, _ | .table _, _ => rfl
  | .value _, h | .notInSet, h | .state _, h | .comp .., h | .iter .., h | .net _, h => by simp [hasUnit] at h

omit [DecidableEq K] in
theorem matchUnit_plain {s : Store K V N} (h : isStore s = false) : matchUnit s = some s := by
  cases s with
  | value | notInSet => rfl
  | alias s =>
    have : ¬ hasUnit s = true := fun e => by
      have := hasUnit_store s e
      simp_all [isStore]
    simp [matchUnit, this]
  | _ => simp [isStore] at h

omit [DecidableEq K] in
theorem ite_unit (s : Store K V N) : (if isStore s then matchUnit s else some s) = matchUnit s := by
  classical
  cases h : isStore s with
  | true => simp
  | false => simp [matchUnit_plain h]

omit [DecidableEq K] in
/-- What a store is opened to is not opened any further. -/
theorem matchUnit_idem : ∀ (s v : Store K V N), matchUnit s = some v → matchUnit v = some v
  | .variant h, v, hv => by
    rw [matchUnit, ite_unit] at hv
    exact matchUnit_idem h v hv
  | .alias s, v, hv => by
    rw [matchUnit] at hv
    split at hv
    · exact matchUnit_idem s v hv
    · next h => cases hv; simp [matchUnit, h]
  | .table _, v, hv => by simp [matchUnit] at hv
  | .value _, v, hv | .notInSet, v, hv | .state _, v, hv | .comp .., v, hv | .iter .., v, hv
  | .net _, v, hv => by cases hv; rfl

/-- Looking up a key in a store and in what it is opened to. -/
theorem matchKey_unit : ∀ (s v : Store K V N) (k : K), isStore s = true → matchUnit s = some v →
    matchKey ops s k = if isStore v then matchKey ops v k else some v
  | .variant h, v, k, _, hv => by
    rw [matchUnit] at hv
    rw [matchKey]
    split at hv
    · next hh => rw [if_pos hh]; exact matchKey_unit h v k hh hv
    · next hh => cases hv; simp [hh]
  | .alias s, v, k, hs, hv => by
    rw [matchUnit] at hv
    split at hv
    · next hu =>
      rw [matchKey, hasUnit_state s hu]
      exact matchKey_unit s v k hs hv
    · cases hv; simp [hs]
  | .table _, v, k, _, hv => by simp [matchUnit] at hv
  | .value _, v, k, hs, hv | .notInSet, v, k, hs, hv => by simp [isStore] at hs
  | .state _, v, k, hs, hv | .comp .., v, k, hs, hv | .iter .., v, k, hs, hv
  | .net _, v, k, hs, hv => by cases hv; simp [isStore]

theorem get_store : ∀ (s v : Store K V N) (k : K), get s k = some v → isStore s = true
  | .alias s, v, k, h => get_store s v k h
  | .state _, _, _, _ | .variant _, _, _, _ | .table _, _, _, _ | .comp .., _, _, _ | .iter .., _, _, _
  | .net _, _, _, _ => rfl
  | .value _, _, _, h | .notInSet, _, _, h => by simp [get] at h

theorem get_state : ∀ (s v : Store K V N) (k : K), get s k = some v → isState s = true
  | .alias s, v, k, h => get_state s v k h
  | .state _, _, _, _ => rfl
  | .variant _, _, _, h | .table _, _, _, h | .comp .., _, _, h | .iter .., _, _, h
  | .net _, _, _, h | .value _, _, _, h | .notInSet, _, _, h => by simp [get] at h

theorem matchKey_get (s v : Store K V N) (k : K) (h : get s k = some v) : matchKey ops s k = some v := by
  cases s with
  | state => exact h
  | alias s =>
    have := get_state s v k h
    rw [matchKey, if_pos this]
    exact h
  | _ => simp [get] at h

theorem matchPath_nil (s : Store K V N) : matchPath ops s [] = matchUnit s := by
  rw [matchPath, ite_unit]

/-! ## C43 -/

/-- Looking up a key in a composition of any number of stores: the outermost store bound to the key is
opened; if there is none the underlying store is asked. -/
theorem lookup_routes (bs : List (K × Store K V N)) (base : Store K V N) (k : K) :
    matchKey ops (compose bs base) k =
      match bs.lookup k with
      | some right => matchUnit right
      | none => matchKey ops base k := by
  induction bs with
  | nil => rfl
  | cons b bs ih =>
    show matchKey ops (.comp b.1 (compose bs base) b.2) k = _
    rw [matchKey, List.lookup_cons, ite_unit]
    by_cases h : k = b.1
    · simp [h]
    · have : (k == b.1) = false := by simpa using h
      simp [h, ih, this]

/-- An action for a composed key is applied to the outermost store bound to it and to nothing else. -/
theorem action_routes (pre post : List (K × Store K V N)) (k : K) (right base : Store K V N)
    (hk : ∀ b ∈ pre, b.1 ≠ k) (a : Action K A) :
    applyAction ops (compose (pre ++ (k, right) :: post) base) (.tagged k a) =
      (applyAction ops right a).map fun x => (compose (pre ++ (k, x.1) :: post) base, x.2) := by
  induction pre with
  | nil => simp [compose, applyAction]
  | cons b pre ih =>
    have h1 : k ≠ b.1 := fun e => hk b (by simp) e.symm
    have := ih fun b hb => hk b (by simp [hb])
    show applyAction ops (.comp b.1 (compose (pre ++ (k, right) :: post) base) b.2) _ = _
    simp only [applyAction, if_neg h1, this, Option.map_map]
    rfl

/-- Every other action is applied to the underlying store and to nothing else. -/
theorem action_underlying (bs : List (K × Store K V N)) (base : Store K V N) (a : Action K A)
    (h : ∀ k b, a = .tagged k b → ∀ x ∈ bs, x.1 ≠ k) :
    applyAction ops (compose bs base) a = (applyAction ops base a).map fun x => (compose bs x.1, x.2) := by
  induction bs with
  | nil => simp [compose]
  | cons b bs ih =>
    have := ih fun k c e x hx => h k c e x (by simp [hx])
    show applyAction ops (.comp b.1 (compose bs base) b.2) _ = _
    cases a with
    | tagged k c =>
      have h1 : k ≠ b.1 := fun e => h k c rfl b (by simp) e.symm
      simp only [applyAction, if_neg h1, this, Option.map_map]
      rfl
    | raw a => simp only [applyAction, this, Option.map_map]; rfl
    | elem a => simp only [applyAction, this, Option.map_map]; rfl

/-- The store under all compositions and ranges. -/
def bottom : Store K V N → Store K V N
  | .comp _ l _ => bottom l
  | .iter _ _ s => bottom s
  | s => s

/-- What is returned for an action without a key: the report of the NetworkStore at the bottom, or else
that something changed. -/
theorem action_report : ∀ (s : Store K V N) (a : A),
    (applyAction ops s (.raw a)).map (·.2) =
      match bottom s with
      | .net n => (ops.message n a).map (·.2)
      | b => (ops.assign b a).map fun _ => true
  | .comp key l r, a => by
    have := action_report l a
    simp only [applyAction, bottom, Option.map_map, Function.comp_def] at this ⊢
    exact this
  | .iter key e s, a => by
    have := action_report s a
    simp only [applyAction, bottom, Option.map_map, Function.comp_def] at this ⊢
    exact this
  | .net n, a => by simp [applyAction, bottom, Option.map_map, Function.comp_def]
  | .value _, a | .notInSet, a | .state _, a | .variant _, a | .table _, a | .alias _, a => by
    simp [applyAction, bottom, Option.map_map, Function.comp_def]

/-- After an action for a bound key, that key shows the changed store and all others show what they
showed before. -/
theorem action_frame (bs : List (K × Store K V N)) (base s' : Store K V N) (k : K) (a : Action K A) (r : Bool)
    (right : Store K V N) (hk : bs.lookup k = some right)
    (h : applyAction ops (compose bs base) (.tagged k a) = some (s', r)) :
    (∃ right', applyAction ops right a = some (right', r) ∧ matchKey ops s' k = matchUnit right') ∧
    ∀ k' ≠ k, matchKey ops s' k' = matchKey ops (compose bs base) k' := by
  induction bs generalizing s' with
  | nil => simp at hk
  | cons b bs ih =>
    change applyAction ops (.comp b.1 (compose bs base) b.2) _ = _ at h
    by_cases e : k = b.1
    · rw [List.lookup_cons] at hk
      simp [e] at hk
      simp only [applyAction, if_pos e, Option.map_eq_some_iff] at h
      obtain ⟨x, hx, hs⟩ := h
      simp only [Prod.mk.injEq] at hs
      obtain ⟨rfl, rfl⟩ := hs
      subst hk
      refine ⟨⟨x.1, hx, by rw [matchKey, if_pos e, ite_unit]⟩, fun k' hk' => ?_⟩
      show _ = matchKey ops (.comp b.1 (compose bs base) b.2) k'
      rw [matchKey, matchKey, if_neg (e ▸ hk'), if_neg (e ▸ hk')]
    · have e' : (k == b.1) = false := by simpa using e
      rw [List.lookup_cons, e'] at hk
      simp only [applyAction, if_neg e, Option.map_eq_some_iff] at h
      obtain ⟨x, hx, hs⟩ := h
      simp only [Prod.mk.injEq] at hs
      obtain ⟨rfl, rfl⟩ := hs
      obtain ⟨⟨r', h1, h2⟩, h3⟩ := ih x.1 hk hx
      refine ⟨⟨r', h1, by rw [matchKey, if_neg e, h2]⟩, fun k' hk' => ?_⟩
      show _ = matchKey ops (.comp b.1 (compose bs base) b.2) k'
      rw [matchKey, matchKey, h3 k' hk']

/-- Two values composed with a State; the second key is bound twice. -/
def exBase : Store Nat Nat Nat := .state [(1, .value 10)]
def exBinds : List (Nat × Store Nat Nat Nat) :=
  [(5, .variant (.value 50)), (6, .value 60), (7, .net 1), (6, .value 61)]
def exOps : Ops Nat Nat Nat Nat where
  view n k := 100 * n + k
  message n a := some (n + a, a ≠ 0)
  assign _ a := some (.value a)

example : matchKey exOps (compose exBinds exBase) 5 = some (.value 50) := by rfl
example : matchKey exOps (compose exBinds exBase) 6 = some (.value 60) := by rfl
example : matchKey exOps (compose exBinds exBase) 1 = some (.value 10) := by rfl
example : applyAction exOps (compose exBinds exBase) (.tagged 7 (.raw 4)) =
    some (compose [(5, .variant (.value 50)), (6, .value 60), (7, .net 5), (6, .value 61)] exBase, true) := by
  rfl
example : ∀ b ∈ exBinds.take 2, b.1 ≠ 7 := by simp [exBinds]
example : exBinds.lookup 6 = some (.value 60) := by rfl

/-! ### Ranges -/

/-- VIOLATION of routing: in a range over a range no action whatever reaches the element of the inner
range, because the action for an element does not say which range it belongs to. -/
theorem inner_element_unreachable_violated (k1 k2 : K) (hk : k1 ≠ k2) (e1 e2 s : Store K V N) (a : Action K A)
    (s' : Store K V N) (r : Bool) (h : applyAction ops (.iter k1 e1 (.iter k2 e2 s)) a = some (s', r)) :
    matchKey ops s' k2 = matchUnit e2 := by
  cases a with
  | elem b =>
    simp only [applyAction, Option.map_eq_some_iff] at h
    obtain ⟨x, _, hs⟩ := h
    simp only [Prod.mk.injEq] at hs
    obtain ⟨rfl, rfl⟩ := hs
    rw [matchKey, if_neg hk.symm, matchKey, if_pos rfl]
  | raw b =>
    simp only [applyAction, Option.map_eq_some_iff] at h
    obtain ⟨x, ⟨y, _, rfl⟩, hs⟩ := h
    simp only [Prod.mk.injEq] at hs
    obtain ⟨rfl, rfl⟩ := hs
    rw [matchKey, if_neg hk.symm, matchKey, if_pos rfl]
  | tagged k b =>
    simp only [applyAction, Option.map_eq_some_iff] at h
    obtain ⟨x, ⟨y, _, rfl⟩, hs⟩ := h
    simp only [Prod.mk.injEq] at hs
    obtain ⟨rfl, rfl⟩ := hs
    rw [matchKey, if_neg hk.symm, matchKey, if_pos rfl]

example : applyAction exOps (.iter 8 (.value 1) (.iter 9 (.value 2) exBase)) (.elem (.raw 3)) =
    some (.iter 8 (.value 3) (.iter 9 (.value 2) exBase), true) := by rfl

/-! ## C44 -/

/-- `get_path` of a concatenated path. -/
theorem get_path_append (s : Store K V N) (p q : List K) :
    getPath s (p ++ q) = (getPath s p).bind fun v => getPath v q := by
  simp [getPath, List.foldlM_append]

/-- `match_path` of a concatenated path: if the prefix leads to a Store, the lookup goes on from there; if
it leads to a plain value, that is the result. -/
theorem match_path_append (s v : Store K V N) (p q : List K) (hs : isStore s = true)
    (h : matchPath ops s p = some v) :
    matchPath ops s (p ++ q) = if isStore v then matchPath ops v q else some v := by
  induction p generalizing s with
  | nil =>
    rw [matchPath_nil] at h
    cases q with
    | nil => rw [List.append_nil, matchPath_nil, matchPath_nil, h, ← ite_unit, matchUnit_idem _ _ h]; simp
    | cons k q =>
      show matchPath ops s (k :: q) = _
      rw [matchPath, matchKey_unit ops s v k hs h]
      cases hv : isStore v with
      | true => simp [matchPath]
      | false => simp [hv]
  | cons k p ih =>
    rw [matchPath] at h
    show matchPath ops s (k :: (p ++ q)) = _
    rw [matchPath]
    split at h
    · simp at h
    · next w hw =>
      split at h
      · next hst => rw [if_pos hst]; exact ih w hst h
      · next hst => cases h; rw [if_neg hst, if_neg hst]

/-- Where the members on a path are States all the way, `match_path` gives what `get_path` gives, opened. -/
theorem match_path_get (s v : Store K V N) (p : List K) (h : getPath s p = some v) :
    matchPath ops s p = matchUnit v := by
  induction p generalizing s with
  | nil => cases h; exact matchPath_nil ops _
  | cons k p ih =>
    obtain ⟨w, hw, hp⟩ : ∃ w, get s k = some w ∧ getPath w p = some v := by
      simpa [getPath, Option.bind_eq_some_iff] using h
    rw [matchPath, matchKey_get ops s w k hw]
    simp only
    split
    · exact ih w hp
    · next hn =>
      cases p with
      | nil => cases hp; rw [matchUnit_plain (by simpa using hn)]
      | cons k' p =>
        obtain ⟨u, hu, _⟩ : ∃ u, get w k' = some u ∧ getPath u p = some v := by
          simpa [getPath, Option.bind_eq_some_iff] using hp
        exact absurd (get_store w u k' hu) hn

/-- A variant or an unordered map, under any number of names. -/
def Closed : Store K V N → Prop
  | .variant _ | .table _ => True
  | .alias s => Closed s
  | _ => False

theorem closed_unit : ∀ s : Store K V N, Closed s → hasUnit s = true
  | .variant _, _ | .table _, _ => rfl
  | .alias s, h => closed_unit s h
  | .value _, h | .notInSet, h | .state _, h | .comp .., h | .iter .., h | .net _, h => h.elim

theorem matchUnit_open : ∀ (s v : Store K V N), matchUnit s = some v → ¬ Closed v
  | .variant h, v, e => by
    rw [matchUnit] at e
    split at e
    · exact matchUnit_open h v e
    · next hn => cases e; exact fun c => hn (hasUnit_store h (closed_unit h c))
  | .alias s, v, e => by
    rw [matchUnit] at e
    split at e
    · exact matchUnit_open s v e
    · next hn => cases e; exact fun c => hn (closed_unit s c)
  | .table _, v, e => by simp [matchUnit] at e
  | .value _, v, e | .notInSet, v, e | .state _, v, e | .comp .., v, e | .iter .., v, e
  | .net _, v, e => by cases e; exact id

/-- What `match_path` gives is never a variant: it is opened as far as it goes. -/
theorem match_path_opened (s v : Store K V N) (p : List K) (h : matchPath ops s p = some v) :
    matchUnit v = some v ∧ ¬ Closed v := by
  suffices e : matchUnit v = some v from ⟨e, matchUnit_open v v e⟩
  induction p generalizing s with
  | nil => rw [matchPath_nil] at h; exact matchUnit_idem _ _ h
  | cons k p ih =>
    rw [matchPath] at h
    split at h
    · simp at h
    · split at h
      · exact ih _ h
      · next hn => cases h; exact matchUnit_plain (by simpa using hn)

/-- VIOLATION: a path that goes on after a plain value is not rejected; the rest of the path is dropped
and the function is called with the value. -/
theorem rest_of_path_dropped_violated (s v : Store K V N) (p q : List K) (hs : isStore s = true)
    (h : matchPath ops s p = some v) (hv : isStore v = false) : matchPath ops s (p ++ q) = some v := by
  rw [match_path_append ops s v p q hs h, hv]; simp

/-- An account with an optional person, as in test/nbdl/core/match_path.cpp. -/
def exAccount (person : Store Nat Nat Nat) : Store Nat Nat Nat :=
  .state [(1, .value 7), (2, .variant person)]
def exPerson : Store Nat Nat Nat := .state [(3, .alias (.state [(4, .value 40), (5, .value 50)]))]

example : matchPath exOps (exAccount exPerson) [2, 3, 5] = some (.value 50) := by rfl
example : matchPath exOps (exAccount .notInSet) [2, 3, 5] = some .notInSet := by rfl
example : matchPath exOps (exAccount exPerson) [2] = some exPerson := by rfl
example : getPath exPerson [3, 4] = some (.value 40) := by rfl
/-- A path that makes no sense. -/
example : matchPath exOps (exAccount exPerson) [1, 99, 98] = some (.value 7) := by rfl

/-- VIOLATION: an unordered map in an unordered map (or in a composition) cannot be looked up by any path
through it: the program does not compile. -/
theorem nested_map_violated (rows inner : List (K × Store K V N)) (k : K) (p : List K)
    (h : rows.lookup k = some (.table inner)) : matchPath ops (.table rows) (k :: p) = none := by
  simp [matchPath, matchKey, h, isStore, matchUnit]

example : matchPath exOps (.table [(1, .table [(2, .value 3)])]) [1, 2] = none := by rfl
example : matchPath exOps (.table [(1, .state [(2, .value 3)])]) [1, 2] = some (.value 3) := by rfl

/-- A key that is not in a map gives `not_in_set`, whatever path follows; a key that is there gives the row, opened, and
the lookup goes on from it. -/
theorem map_lookup (rows : List (K × Store K V N)) (k : K) (p : List K) :
    (rows.lookup k = none → matchPath ops (.table rows) (k :: p) = some .notInSet) ∧
    (∀ v, rows.lookup k = some v → isStore v = false → matchPath ops (.table rows) (k :: p) = some v) ∧
    (∀ v u, rows.lookup k = some v → matchUnit v = some u → isStore u = true →
      matchPath ops (.table rows) (k :: p) = matchPath ops u p) := by
  refine ⟨fun h => ?_, fun v h hv => ?_, fun v u h hu hs => ?_⟩
  · simp [matchPath, matchKey, h, isStore]
  · simp [matchPath, matchKey, h, hv]
  · rcases hv : isStore v with - | -
    · rw [matchUnit_plain hv, Option.some.injEq] at hu
      subst hu
      rw [hv] at hs; simp at hs
    · simp [matchPath, matchKey, h, hv, hu, hs]

example : matchPath exOps (.table [(1, .state [(2, .value 3)])]) [4, 2] = some .notInSet := by rfl

end Nbdl.Path
