import Verif.Server.Props
/-! # Exactly who hears what from the JavaScript server -/
namespace Nbdl.Server
open Spec

namespace Spec
variable {D X M : Type}

/-- The message is JSON but not a message of the context. -/
def unreadable (read : D → Option (Option X)) (d : D) : Bool :=
  match read d with
  | some none => true
  | _ => false

/-- The connections made, in order, without those dropped since for a message that cannot be read. -/
def listed (read : D → Option (Option X)) (es : List (JsEv D M)) : List Nat :=
  es.foldl (fun l e => match e with
    | .connect c => l ++ [c]
    | .message c d => if unreadable read d then l.filter fun i => i ≠ c else l
    | _ => l) []

/-- The client of the connection `c` is there: it connected, was not dropped and has not closed. -/
def there (read : D → Option (Option X)) (es : List (JsEv D M)) (c : Nat) : Bool :=
  es.foldl (fun b e => match e with
    | .connect i => if c = i then true else b
    | .message i d => if c = i ∧ unreadable read d then false else b
    | .clientClose i => if c = i then false else b
    | _ => b) false

/-- All that is sent is JSON. -/
def AllJson (read : D → Option (Option X)) (es : List (JsEv D M)) : Prop :=
  ∀ c d, JsEv.message c d ∈ es → read d ≠ none

end Spec

variable {D X M : Type}

theorem jsRun_append (read : D → Option (Option X)) (a b : List (JsEv D M)) (s : J X M) :
    jsRun read (a ++ b) s = jsRun read b (jsRun read a s) := by
  induction a generalizing s with
  | nil => rfl
  | cons e a ih => simp [jsRun, ih]

theorem jsSend_exact (m : M) (cs : List Nat) (s : J X M) :
    jsSend m cs s = { s with sent := s.sent ++ (cs.takeWhile s.opened).map fun c => (c, m) } := by
  induction cs generalizing s with
  | nil => simp [jsSend]
  | cons c cs ih =>
    rw [jsSend, List.takeWhile_cons]
    cases h : s.opened c with
    | false => simp
    | true => simp [ih]

private def Knows (read : D → Option (Option X)) (es : List (JsEv D M)) (s : J X M) : Prop :=
  s.running = true ∧ s.connections = listed read es ∧ s.opened = there read es ∧
    s.received = jsReceives read es

private theorem listed_snoc (read : D → Option (Option X)) (h : List (JsEv D M)) (e : JsEv D M) :
    listed read (h ++ [e]) = match e with
      | .connect c => listed read h ++ [c]
      | .message c d => if unreadable read d then (listed read h).filter fun i => i ≠ c else listed read h
      | _ => listed read h := by
  rw [listed, List.foldl_append]
  rfl

private theorem there_snoc (read : D → Option (Option X)) (h : List (JsEv D M)) (e : JsEv D M) (c : Nat) :
    there read (h ++ [e]) c = match e with
      | .connect i => if c = i then true else there read h c
      | .message i d => if c = i ∧ unreadable read d then false else there read h c
      | .clientClose i => if c = i then false else there read h c
      | _ => there read h c := by
  rw [there, List.foldl_append]
  rfl

private theorem knows_step (read : D → Option (Option X)) (h : List (JsEv D M)) (e : JsEv D M)
    (s : J X M) (hj : ∀ c d, JsEv.message c d = e → read d ≠ none) (k : Knows read h s) :
    Knows read (h ++ [e]) (jsStep read s e) := by
  obtain ⟨k1, k2, k3, k4⟩ := k
  have hr : jsReceives read (h ++ [e]) = jsReceives read h ++ jsReceives read [e] := by
    simp [jsReceives, List.filterMap_append]
  refine ⟨?_, ?_, funext fun x => ?_, ?_⟩
  · cases e with
    | message c d =>
      have hn := hj c d rfl
      rcases hd : read d with _ | _ | x
      · exact absurd hd hn
      all_goals simp [jsStep, k1, hd]
    | _ => simp [jsStep, k1, jsSend_exact]
  · rw [listed_snoc, ← k2]
    cases e with
    | message c d =>
      have hn := hj c d rfl
      rcases hd : read d with _ | _ | x
      · exact absurd hd hn
      all_goals simp [jsStep, k1, hd, unreadable]
    | _ => simp [jsStep, k1, jsSend_exact]
  · rw [there_snoc, ← k3]
    cases e with
    | message c d =>
      have hn := hj c d rfl
      rcases hd : read d with _ | _ | x
      · exact absurd hd hn
      all_goals simp [jsStep, k1, hd, unreadable]
    | _ => simp [jsStep, k1, jsSend_exact]
  · rw [hr, ← k4]
    cases e with
    | message c d =>
      have hn := hj c d rfl
      rcases hd : read d with _ | _ | x
      · exact absurd hd hn
      all_goals simp [jsStep, k1, hd, jsReceives]
    | _ => simp [jsStep, k1, jsSend_exact, jsReceives]

private theorem knows_run (read : D → Option (Option X)) (es : List (JsEv D M)) :
    ∀ (h : List (JsEv D M)) (s : J X M), AllJson read es → Knows read h s →
      Knows read (h ++ es) (jsRun read es s) := by
  induction es with
  | nil => intro h s _ k; simpa [jsRun] using k
  | cons e es ih =>
    intro h s hj k
    have := ih (h ++ [e]) (jsStep read s e) (fun c d hm => hj c d (by simp [hm]))
      (knows_step read h e s (fun c d he => hj c d (by simp [he])) k)
    simpa [jsRun] using this

/-- **C88, exactly.** In every history in which all that clients send is JSON, a message sent
downstream goes, once each, to the connections made before the first one whose client has closed it,
and to no other; and each readable message of a client goes once, in order, to the context. -/
theorem js_server_exact (read : D → Option (Option X)) (es : List (JsEv D M)) (m : M)
    (hj : AllJson read es) :
    (jsRun read (es ++ [.send m]) (js0 : J X M)).sent = (jsRun read es (js0 : J X M)).sent ++
      ((listed read es).takeWhile (there read es)).map (fun c => (c, m)) ∧
    (jsRun read es (js0 : J X M)).received = jsReceives read es := by
  have k : Knows read es (jsRun read es (js0 : J X M)) := by
    simpa using knows_run read es [] js0 hj ⟨rfl, rfl, rfl, rfl⟩
  obtain ⟨k1, k2, k3, k4⟩ := k
  refine ⟨?_, k4⟩
  rw [jsRun_append]
  simp only [jsRun, jsStep, k1, if_true, jsSend_exact, k2, k3]

private theorem takeWhile_eq_filter {α : Type} (p : α → Bool) (l : List α) :
    l.takeWhile p = l.filter p ↔
      ∀ (a b : List α) (x y : α), l = a ++ x :: b → p x = false → y ∈ b → p y = false := by
  induction l with
  | nil => simp
  | cons z l ih =>
    cases hz : p z with
    | false =>
      simp only [List.takeWhile_cons, List.filter_cons, hz, Bool.false_eq_true, if_false]
      constructor
      · intro h a b x y e hx hy
        have hall : ∀ y ∈ l, p y = false := by
          intro y hy
          have := List.filter_eq_nil_iff.mp h.symm y hy
          simpa using this
        cases a with
        | nil => cases e; exact hall y hy
        | cons _ a => cases e; exact hall y (by simp [hy])
      · intro h
        exact (List.filter_eq_nil_iff.mpr fun y hy => by
          rw [h [] l z y rfl hz hy]; decide).symm
    | true =>
      simp only [List.takeWhile_cons, List.filter_cons, hz, if_true, List.cons.injEq, true_and, ih]
      constructor
      · intro h a b x y e hx hy
        cases a with
        | nil => cases e; rw [hz] at hx; cases hx
        | cons _ a => cases e; exact h a b x y rfl hx hy
      · intro h a b x y e hx hy
        exact h (z :: a) b x y (by rw [e]; rfl) hx hy

/-- **C88, exactly.** The message goes to every client who is there if and only if no connection
closed by its client is before that of a client who is there. -/
theorem js_server_all_iff (read : D → Option (Option X)) (es : List (JsEv D M)) (m : M)
    (hj : AllJson read es) :
    (jsRun read (es ++ [.send m]) (js0 : J X M)).sent = (jsRun read es (js0 : J X M)).sent ++
      ((listed read es).filter (there read es)).map (fun c => (c, m)) ↔
    ∀ (a b : List Nat) (x y : Nat), listed read es = a ++ x :: b →
      there read es x = false → y ∈ b → there read es y = false := by
  rw [(js_server_exact read es m hj).1, List.append_cancel_left_eq, ← takeWhile_eq_filter]
  constructor
  · intro h
    have := congrArg (List.map Prod.fst) h
    simpa [List.map_map, Function.comp_def] using this
  · intro h; rw [h]

/-- Two clients, then the second leaves, then a third comes. -/
def exLeft : List (JsEv Nat Nat) := [.connect 1, .connect 2, .clientClose 2, .connect 3]

example : AllJson exRead exLeft := by simp [AllJson, exLeft]
example : listed exRead exLeft = [1, 2, 3] ∧ there exRead exLeft 2 = false ∧
    there exRead exLeft 3 = true := by decide
example : (jsRun exRead (exLeft ++ [.send 9]) (js0 : J Nat Nat)).sent = [(1, 9)] := by decide
/-- Who was dropped by the server does no harm. -/
example : (jsRun exRead ([.connect 1, .connect 2, .message 1 1, .connect 3] ++ [.send 9])
    (js0 : J Nat Nat)).sent = [(2, 9), (3, 9)] := by decide

end Nbdl.Server
