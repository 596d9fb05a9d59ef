import Verif.Path.Props
/-!
# Compositions and ranges around one another in any mix (C43)
-/
namespace Nbdl.Path
variable {K V N A : Type} [DecidableEq K] (ops : Ops K V N A)

/-- One more store put around a store: with `store_compose` (store_compose.hpp:49-59), or as the element of a
`store_range` that is being visited (store_range.hpp:20-72). -/
inductive Layer (K V N : Type)
  | bound (key : K) (s : Store K V N)
  | element (key : K) (s : Store K V N)

namespace Layer
/-- What a lookup of the key of the layer finds. -/
def pair : Layer K V N → K × Store K V N
  | bound k s | element k s => (k, s)

/-- The layer put around a store. -/
def wrap : Layer K V N → Store K V N → Store K V N
  | bound k r, s => .comp k s r
  | element k e, s => .iter k e s

/-- Is it the composition with a certain key? -/
def Bound (k : K) : Layer K V N → Prop
  | bound k' _ => k' = k
  | element .. => False

def Element : Layer K V N → Prop
  | bound .. => False
  | element .. => True
end Layer

/-- All the layers around a store, the first one outermost. -/
def layers (ls : List (Layer K V N)) (base : Store K V N) : Store K V N := ls.foldr Layer.wrap base

/-- Looking up a key: the outermost layer with that key is opened, be it a composed store or the element of
a range; if there is none the underlying store is asked. -/
theorem range_lookup (ls : List (Layer K V N)) (base : Store K V N) (k : K) :
    matchKey ops (layers ls base) k =
      match (ls.map Layer.pair).lookup k with
      | some s => matchUnit s
      | none => matchKey ops base k := by
  induction ls with
  | nil => rfl
  | cons l ls ih =>
    cases l with
    | bound key r =>
      show matchKey ops (.comp key (layers ls base) r) k = match ((key, r) :: ls.map Layer.pair).lookup k with | some s => _ | none => _
      rw [matchKey, List.lookup_cons, ite_unit]
      by_cases h : k = key
      · simp [h]
      · simp [show (k == key) = false by simpa using h, h, ih]
    | element key e =>
      show matchKey ops (.iter key e (layers ls base)) k = match ((key, e) :: ls.map Layer.pair).lookup k with | some s => _ | none => _
      rw [matchKey, List.lookup_cons]
      by_cases h : k = key
      · simp [h]
      · simp [show (k == key) = false by simpa using h, h, ih]

/-- An action for a composed key is applied to the outermost *composed* store with that key and to nothing
else, whatever ranges and other compositions are around it. -/
theorem layer_action_routes (pre post : List (Layer K V N)) (k : K) (right base : Store K V N)
    (hk : ∀ l ∈ pre, ¬ l.Bound k) (a : Action K A) :
    applyAction ops (layers (pre ++ .bound k right :: post) base) (.tagged k a) =
      (applyAction ops right a).map fun x => (layers (pre ++ .bound k x.1 :: post) base, x.2) := by
  induction pre with
  | nil =>
    show applyAction ops (.comp k (layers post base) right) _ = _
    simp only [applyAction, if_true]
    rfl
  | cons b pre ih =>
    have := ih fun b hb => hk b (by simp [hb])
    have h1 := hk b (by simp)
    cases b with
    | bound key r =>
      have h2 : k ≠ key := fun e => h1 e.symm
      show applyAction ops (.comp key (layers (pre ++ .bound k right :: post) base) r) _ = _
      simp only [applyAction, if_neg h2, this, Option.map_map]
      rfl
    | element key e =>
      show applyAction ops (.iter key e (layers (pre ++ .bound k right :: post) base)) _ = _
      simp only [applyAction, this, Option.map_map]
      rfl

/-- An action for the element of a range is applied to the element of the outermost range and to nothing
else, whatever its key. -/
theorem layer_element_routes (pre post : List (Layer K V N)) (k : K) (e base : Store K V N)
    (hk : ∀ l ∈ pre, ¬ l.Element) (a : Action K A) :
    applyAction ops (layers (pre ++ .element k e :: post) base) (.elem a) =
      (applyAction ops e a).map fun x => (layers (pre ++ .element k x.1 :: post) base, x.2) := by
  induction pre with
  | nil =>
    show applyAction ops (.iter k e (layers post base)) _ = _
    simp only [applyAction]
    rfl
  | cons b pre ih =>
    have := ih fun b hb => hk b (by simp [hb])
    have h1 := hk b (by simp)
    cases b with
    | bound key r =>
      show applyAction ops (.comp key (layers (pre ++ .element k e :: post) base) r) _ = _
      simp only [applyAction, this, Option.map_map]
      rfl
    | element key e => exact absurd trivial h1

/-- Every other action is applied to the underlying store and to nothing else. -/
theorem layer_underlying (ls : List (Layer K V N)) (base : Store K V N) (a : Action K A)
    (ht : ∀ k b, a = .tagged k b → ∀ l ∈ ls, ¬ l.Bound k)
    (he : ∀ b, a = .elem b → ∀ l ∈ ls, ¬ l.Element) :
    applyAction ops (layers ls base) a = (applyAction ops base a).map fun x => (layers ls x.1, x.2) := by
  induction ls with
  | nil => simp [layers]
  | cons l ls ih =>
    have := ih (fun k c e x hx => ht k c e x (by simp [hx])) (fun c e x hx => he c e x (by simp [hx]))
    cases l with
    | bound key r =>
      show applyAction ops (.comp key (layers ls base) r) _ = _
      cases a with
      | tagged k c =>
        have h1 : k ≠ key := fun e => ht k c rfl (.bound key r) (by simp) e.symm
        simp only [applyAction, if_neg h1, this, Option.map_map]
        rfl
      | raw a => simp only [applyAction, this, Option.map_map]; rfl
      | elem a => simp only [applyAction, this, Option.map_map]; rfl
    | element key e =>
      show applyAction ops (.iter key e (layers ls base)) _ = _
      cases a with
      | tagged k c => simp only [applyAction, this, Option.map_map]; rfl
      | raw a => simp only [applyAction, this, Option.map_map]; rfl
      | elem a => exact absurd trivial (he a rfl (.element key e) (by simp))

/-- VIOLATION: where a range is put around a composition under the same key, a lookup of that key shows the
element of the range, but an action for that key changes the composed store, so what is shown stays. -/
theorem range_hides_composed_violated (k : K) (e right base s' : Store K V N) (a : Action K A) (r : Bool)
    (h : applyAction ops (layers [.element k e, .bound k right] base) (.tagged k a) = some (s', r)) :
    (∃ right', applyAction ops right a = some (right', r) ∧
      s' = layers [.element k e, .bound k right'] base) ∧
    matchKey ops s' k = matchUnit e ∧
    matchKey ops (layers [.element k e, .bound k right] base) k = matchUnit e := by
  have h1 := layer_action_routes ops [.element k e] [] k right base (by simp [Layer.Bound]) a
  simp only [List.singleton_append] at h1
  rw [h1, Option.map_eq_some_iff] at h
  obtain ⟨x, hx, he⟩ := h
  simp only [Prod.mk.injEq] at he
  obtain ⟨rfl, rfl⟩ := he
  refine ⟨⟨x.1, hx, rfl⟩, ?_, ?_⟩ <;> rw [range_lookup] <;> simp [Layer.pair]

def exLayers : List (Layer Nat Nat Nat) :=
  [.bound 5 (.variant (.value 50)), .element 8 (.value 1), .bound 6 (.value 60), .element 9 (.value 2),
   .bound 8 (.net 3)]

example : matchKey exOps (layers exLayers exBase) 9 = some (.value 2) := by rfl
example : matchKey exOps (layers exLayers exBase) 8 = some (.value 1) := by rfl
example : matchKey exOps (layers exLayers exBase) 1 = some (.value 10) := by rfl
/- the action with key 8 passes the range with that key -/
example : ∀ l ∈ exLayers.take 4, ¬ l.Bound 8 := by simp [exLayers, Layer.Bound]
example : (applyAction exOps (layers exLayers exBase) (.tagged 8 (.raw 4))).map (·.1) =
    some (layers (exLayers.take 4 ++ [.bound 8 (.net 7)]) exBase) := by rfl
/- the action for an element reaches the range with key 8, never that with key 9 -/
example : ∀ l ∈ exLayers.take 1, ¬ l.Element := by simp [exLayers, Layer.Element]
example : (applyAction exOps (layers exLayers exBase) (.elem (.raw 4))).map (·.1) =
    some (layers (exLayers.take 1 ++ .element 8 (.value 4) :: exLayers.drop 2) exBase) := by rfl
example : ∀ l ∈ exLayers, ¬ l.Bound 9 := by simp [exLayers, Layer.Bound]
example : (applyAction exOps (layers [.element 8 (.value 1), .bound 8 (.value 2)] exBase) (.tagged 8 (.raw 4))).map (·.1) =
    some (layers [.element 8 (.value 1), .bound 8 (.value 4)] exBase) := by rfl

end Nbdl.Path
