import Verif.Params.Model
/-!
C56: parameter views.
-/
namespace Nbdl.Params
namespace Spec

/-- How a view is made. -/
inductive Expr (Addr : Type) where
  | empty
  | append (e : Expr Addr) (x : Param Addr)
  | concat (e1 e2 : Expr Addr)

variable {Addr : Type}

/-- The parameters, in order. -/
def params : Expr Addr → List (Param Addr)
  | .empty => []
  | .append e x => params e ++ [x]
  | .concat e1 e2 => params e1 ++ params e2

/-- Values have no state. -/
def Stateless : Param Addr → Prop
  | .ref _ => True
  | .value _ s => s = 0

end Spec
open Spec
variable {Addr : Type}

/-- The view made by an expression. -/
def build : Expr Addr → View Addr
  | .empty => make
  | .append e x => Params.append x (build e)
  | .concat e1 e2 => Params.concat (build e1) (build e2)

/-- A parameter without the state of its value. -/
def erase : Param Addr → Param Addr
  | .ref a => .ref a
  | .value t _ => .value t 0

theorem append_eq (x : Param Addr) (p : View Addr) : append x p = match x with
    | .ref a => ⟨p.storage ++ [a], p.list ++ [.ref p.storage.length]⟩
    | .value t _ => ⟨p.storage, p.list ++ [.value t]⟩ := by
  unfold append
  split
  · rfl
  · rename_i h
    have : p.storage = [] := List.length_eq_zero_iff.1 (by omega)
    cases x <;> simp [this]

theorem concat_eq (p1 p2 : View Addr) : concat p1 p2
    = ⟨p1.storage ++ p2.storage, p1.list ++ p2.list.map (offset p1.storage.length)⟩ := by
  unfold concat
  split
  · rfl
  · rename_i h
    have h1 : p1.storage = [] := List.length_eq_zero_iff.1 (by omega)
    have h2 : p2.storage = [] := List.length_eq_zero_iff.1 (by omega)
    simp [h1, h2]

theorem mapM_some {α β : Type} (f : α → Option β) (g : α → β) (l : List α) (h : ∀ a ∈ l, f a = some (g a)) :
    l.mapM f = some (l.map g) := by
  induction l with
  | nil => rfl
  | cons a l ih =>
    simp only [List.mapM_cons, h a (by simp), ih fun b hb => h b (by simp [hb])]
    rfl

/-- The invariant: every placeholder points into the storage, at the object that was appended. -/
theorem build_inv (e : Expr Addr) :
    ∃ l : List (Entry × Param Addr), (build e).list = l.map (·.1) ∧ (params e).map erase = l.map (·.2)
      ∧ ∀ q ∈ l, hydrate (build e) q.1 = some q.2 := by
  have mono : ∀ (s s' : List Addr) (l l' : List Entry) (en : Entry) (r : Param Addr),
      hydrate ⟨s, l⟩ en = some r → hydrate ⟨s ++ s', l'⟩ en = some r := by
    intro s s' l l' en r h
    cases en with
    | value t => exact h
    | ref pos =>
      simp only [hydrate] at h ⊢
      obtain ⟨a, h1, h2⟩ := Option.map_eq_some_iff.1 h
      rw [List.getElem?_append_left (List.getElem?_eq_some_iff.1 h1).1, h1, ← h2]; rfl
  have shift : ∀ (s s' : List Addr) (l l' : List Entry) (en : Entry) (r : Param Addr),
      hydrate ⟨s', l⟩ en = some r → hydrate ⟨s ++ s', l'⟩ (offset s.length en) = some r := by
    intro s s' l l' en r h
    cases en with
    | value t => exact h
    | ref pos =>
      simp only [hydrate, offset] at h ⊢
      rw [List.getElem?_append_right (by omega), Nat.add_sub_cancel]; exact h
  induction e with
  | empty => exact ⟨[], rfl, rfl, by simp⟩
  | append e x ih =>
    obtain ⟨l, h1, h2, h3⟩ := ih
    simp only [build, params]
    rw [append_eq]
    cases x with
    | ref a =>
      refine ⟨l ++ [(.ref (build e).storage.length, .ref a)], by simp [h1], by simp [h2, erase], ?_⟩
      intro q hq
      rcases List.mem_append.1 hq with hq | hq
      · exact mono _ _ _ _ _ _ (h3 q hq)
      · simp only [List.mem_singleton] at hq
        subst hq
        simp [hydrate]
    | value t s =>
      refine ⟨l ++ [(.value t, .value t 0)], by simp [h1], by simp [h2, erase], ?_⟩
      intro q hq
      rcases List.mem_append.1 hq with hq | hq
      · have := mono (build e).storage [] (build e).list ((build e).list ++ [.value t]) _ _ (h3 q hq)
        rwa [List.append_nil] at this
      · simp only [List.mem_singleton] at hq
        subst hq
        simp [hydrate]
  | concat e1 e2 ih1 ih2 =>
    obtain ⟨l1, a1, a2, a3⟩ := ih1
    obtain ⟨l2, b1, b2, b3⟩ := ih2
    simp only [build, params]
    rw [concat_eq]
    refine ⟨l1 ++ l2.map fun q => (offset (build e1).storage.length q.1, q.2), ?_, ?_, ?_⟩
    · simp [a1, b1]
    · simp [a2, b2]
    · intro q hq
      rcases List.mem_append.1 hq with hq | hq
      · exact mono _ _ _ _ _ _ (a3 q hq)
      · obtain ⟨q', hq', rfl⟩ := List.mem_map.1 hq
        exact shift _ _ _ _ _ _ (b3 q' hq')

/-- C56: unpacking gives the parameters in order, references to the original objects, and values default
constructed. -/
theorem unpack_build (e : Expr Addr) : unpack (build e) = some ((params e).map erase) := by
  obtain ⟨l, h1, h2, h3⟩ := build_inv e
  have hm : ∀ (f : Entry → Option (Param Addr)) (l : List (Entry × Param Addr)),
      (∀ q ∈ l, f q.1 = some q.2) → (l.map (·.1)).mapM f = some (l.map (·.2)) := by
    intro f l
    induction l with
    | nil => intro _; rfl
    | cons q l ih =>
      intro h
      simp only [List.map_cons, List.mapM_cons, h q (by simp), ih fun b hb => h b (by simp [hb])]
      rfl
  unfold unpack
  rw [h1, h2, hm _ l h3]

/-- C56: if the values have no state, unpacking gives exactly the parameters, for every way to append and
concatenate. -/
theorem unpack_exact (e : Expr Addr) (h : ∀ x ∈ params e, Stateless x) : unpack (build e) = some (params e) := by
  rw [unpack_build]
  congr 1
  have : ∀ l : List (Param Addr), (∀ x ∈ l, Stateless x) → l.map erase = l := by
    intro l
    induction l with
    | nil => intro _; rfl
    | cons x l ih =>
      intro h
      rw [List.map_cons, ih fun y hy => h y (by simp [hy])]
      congr 1
      have hx := h x (by simp)
      cases x with
      | ref a => rfl
      | value t s => simp only [Stateless] at hx; subst hx; rfl
  exact this _ h

def sample : Expr Nat :=
  .concat (.append (.append .empty (.value 3 0)) (.ref 10)) (.append (.append .empty (.ref 20)) (.ref 10))
example : ∀ x ∈ params sample, Stateless x := by simp [sample, params, Stateless]
example : unpack (build sample) = some [.value 3 0, .ref 10, .ref 20, .ref 10] := by decide

/-- C56: concatenation is associative. -/
theorem concat_assoc (e1 e2 e3 : Expr Addr) :
    unpack (build (.concat (.concat e1 e2) e3)) = unpack (build (.concat e1 (.concat e2 e3))) := by
  rw [unpack_build, unpack_build]
  simp [params]

/-- C56 violated: a value that has state is accepted, but its state is lost. -/
theorem state_lost_violated (a : Addr) :
    unpack (build (.append (.append .empty (.ref a)) (.value 0 5))) = some [.ref a, .value 0 0] := by
  rw [unpack_build]; rfl

end Nbdl.Params
