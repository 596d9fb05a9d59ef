import Verif.ClientJs.Lemmas
/-!
# What a client hears of its connection
-/
namespace Nbdl.ClientJs
open Spec

/-! ## C83: everything, once, in order, up to the first error -/

theorem trace_over {D J E} (parse : D → Option J) (react : Nat → React) (is : List (In D E)) :
    ∀ k, trace (J := J) parse react .over k is = (.over, []) := by
  induction is with
  | nil => intro k; rfl
  | cons i is ih => intro k; cases i <;> simp [trace, next, ih]

theorem trace_reading {D J E} (parse : D → Option J) (react : Nat → React)
    (hs : ∀ n, react n ≠ .later) (is : List (In D E)) :
    ∀ k, (trace parse react .reading k is).2 = untilStop react k (reading (J := J) parse is) := by
  induction is with
  | nil => intro k; rfl
  | cons i is ih =>
    intro k
    cases i with
    | message d =>
      cases hp : parse d with
      | none => simp [trace, next, reading, hp, ih]
      | some j =>
        cases hr : react k with
        | now => simp [trace, next, reading, hp, after, hr, untilStop, ih]
        | later => exact absurd hr (hs k)
        | stop => simp [trace, next, reading, hp, after, hr, untilStop, trace_over]
    | opened e => simp [trace, next, reading, ih]
    | resume ok => simp [trace, next, reading, ih]
    | error e => simp [trace, next, reading, untilStop, trace_over]
    | close e => simp [trace, next, reading, untilStop, trace_over]

theorem trace_connecting {D J E} (parse : D → Option J) (react : Nat → React)
    (hs : ∀ n, react n ≠ .later) (is : List (In D E)) :
    ∀ k, (trace parse react .connecting k is).2 = untilStop react k (heard (J := J) parse is) := by
  induction is with
  | nil => intro k; rfl
  | cons i is ih =>
    intro k
    cases i with
    | opened e =>
      cases hr : react k with
      | now => simp [trace, next, heard, after, hr, untilStop, trace_reading parse react hs]
      | later => exact absurd hr (hs k)
      | stop => simp [trace, next, heard, after, hr, untilStop, trace_over]
    | message d => simp [trace, next, heard, ih]
    | resume ok => simp [trace, next, heard, ih]
    | error e => simp [trace, next, heard, untilStop, trace_over]
    | close e => simp [trace, next, heard, untilStop, trace_over]

/-- C83.  For a client which handles each message at once, as the one of app/client.hpp does, and
for every history of the socket: it is told that it is connected, then it is given every message
which is JSON, each once and in order; the first error or closing is reported once and nothing
after it; unless it failed to handle something: then it hears nothing after that. -/
theorem client_hears {D J E} (dom : Bool) (parse : D → Option J) (react : Nat → React)
    (hs : ∀ n, react n ≠ .later) (is : List (In D E)) :
    ∃ w, run dom parse react is (start : W J E) = .ok w ∧
      w.log = untilStop react 0 (heard parse is) := by
  obtain ⟨w, e, _, l⟩ := run_good dom parse react is .connecting (start : W J E) good_start
  refine ⟨w, e, ?_⟩
  rw [l]
  simp [start, trace_connecting parse react hs]

theorem untilStop_now {J E} (react : Nat → React) (hs : ∀ n, react n = .now)
    (os : List (Out J E)) : ∀ k, untilStop react k os = os := by
  induction os with
  | nil => intro k; rfl
  | cons o os ih => intro k; simp [untilStop, hs, ih]

/-- C83, for a client which handles everything. -/
theorem client_hears_all {D J E} (dom : Bool) (parse : D → Option J) (is : List (In D E)) :
    ∃ w, run dom parse (fun _ => .now) is (start : W J E) = .ok w ∧ w.log = heard parse is := by
  obtain ⟨w, e, l⟩ := client_hears dom parse (fun _ => .now) (by simp) is
  exact ⟨w, e, by rw [l, untilStop_now _ (by simp)]⟩

/-- An example: data are pairs of a number and whether it is JSON. -/
def exParse (d : Nat × Bool) : Option Nat := if d.2 then some d.1 else none

example : heard (E := Nat) exParse
    [.opened 0, .message (1, true), .message (2, false), .message (3, true), .error 7, .close 8]
    = [.ready 0, .msg 1, .msg 3, .err 7] := by decide
example : untilStop (fun n => if n = 1 then .stop else .now) 0 (heard (E := Nat) exParse
    [.opened 0, .message (1, true), .message (2, false), .message (3, true), .error 7, .close 8])
    = [.ready 0, .msg 1] := by decide
example : heard (J := Nat) exParse [.error 7, .close 8] = [.err 7] := by decide

theorem trace_attended {D J E} (parse : D → Option J) (react : Nat → React) (is : List (In D E)) :
    ∀ k, (trace parse react .reading k is).2
        = untilStop react k (reading (J := J) parse (attended parse react true false k is))
      ∧ (trace parse react .busy k is).2
        = untilStop react k (reading (J := J) parse (attended parse react true true k is)) := by
  induction is with
  | nil => intro k; exact ⟨rfl, rfl⟩
  | cons i is ih =>
    intro k
    cases i with
    | message d =>
      refine ⟨?_, by simp [trace, next, attended, (ih k).2]⟩
      cases hp : parse d with
      | none => simp [trace, next, attended, gives, reading, hp, (ih k).1]
      | some j =>
        cases hr : react k with
        | now => simp [trace, next, attended, gives, reading, hp, after, hr, untilStop, (ih (k + 1)).1]
        | later => simp [trace, next, attended, gives, reading, hp, after, hr, untilStop, (ih (k + 1)).2]
        | stop => simp [trace, next, attended, gives, reading, hp, after, hr, untilStop, trace_over]
    | opened e =>
      exact ⟨by simp [trace, next, attended, gives, reading, (ih k).1], by simp [trace, next, attended, (ih k).2]⟩
    | resume ok =>
      refine ⟨by simp [trace, next, attended, gives, reading, (ih k).1], ?_⟩
      cases ok with
      | true => simp [trace, next, attended, (ih k).1]
      | false => simp [trace, next, attended, reading, untilStop, trace_over]
    | error e =>
      exact ⟨by simp [trace, next, attended, reading, untilStop, trace_over], by simp [trace, next, attended, (ih k).2]⟩
    | close e =>
      exact ⟨by simp [trace, next, attended, reading, untilStop, trace_over], by simp [trace, next, attended, (ih k).2]⟩

theorem trace_attended_connecting {D J E} (parse : D → Option J) (react : Nat → React) (is : List (In D E)) :
    ∀ k, (trace parse react .connecting k is).2
        = untilStop react k (heard (J := J) parse (attended parse react false false k is)) := by
  induction is with
  | nil => intro k; rfl
  | cons i is ih =>
    intro k
    cases i with
    | opened e =>
      cases hr : react k with
      | now => simp [trace, next, attended, gives, heard, after, hr, untilStop, (trace_attended parse react is _).1]
      | later => simp [trace, next, attended, gives, heard, after, hr, untilStop, (trace_attended parse react is _).2]
      | stop => simp [trace, next, attended, gives, heard, after, hr, untilStop, trace_over]
    | message d => simp [trace, next, attended, gives, heard, ih]
    | resume ok => simp [trace, next, attended, gives, heard, ih]
    | error e => simp [trace, next, attended, heard, untilStop, trace_over]
    | close e => simp [trace, next, attended, heard, untilStop, trace_over]

/-- C83, for any client, also one which takes its time over some of what it is given: it hears exactly
what it should hear if nothing had happened while it was busy. -/
theorem client_hears_exact {D J E} (dom : Bool) (parse : D → Option J) (react : Nat → React) (is : List (In D E)) :
    ∃ w, run dom parse react is (start : W J E) = .ok w ∧
      w.log = untilStop react 0 (heard parse (attended parse react false false 0 is)) := by
  obtain ⟨w, e, _, l⟩ := run_good dom parse react is .connecting (start : W J E) good_start
  refine ⟨w, e, ?_⟩
  rw [l, trace_attended_connecting]
  simp [start]

example : attended exParse (fun n => if n = 1 then .later else .now) false false 0
    ([.opened 0, .message (1, true), .message (2, true), .error 6, .resume true, .message (3, true), .error 7] :
      List (In (Nat × Bool) Nat))
    = [.opened 0, .message (1, true), .message (3, true), .error 7] := by decide

/-- C83 fails for an endpoint which takes its time over a message: a message which arrives
meanwhile is lost. -/
theorem client_busy_message_violated {D J E} (dom : Bool) (parse : D → Option J) (a b : D) (x y : J) (e : E)
    (ha : parse a = some x) (hb : parse b = some y) :
    ∃ (react : Nat → React) (w : W J E),
      run dom parse react [.opened e, .message a, .message b, .resume true] start = .ok w ∧
      w.log = [.ready e, .msg x] ∧
      heard parse [.opened e, .message a, .message b, .resume true] =
        [.ready e, .msg x, .msg y] := by
  refine ⟨fun n => if n = 1 then .later else .now, ?_⟩
  obtain ⟨w, h, _, l⟩ := run_good dom parse (fun n => if n = 1 then .later else .now)
    [.opened e, .message a, .message b, .resume true] .connecting (start : W J E) good_start
  refine ⟨w, h, ?_, ?_⟩
  · rw [l]; simp [start, trace, next, after, ha]
  · simp [heard, reading, ha, hb]

/-- And if the connection is lost meanwhile, that is never reported: the endpoint waits for a
message for ever. -/
theorem client_busy_close_violated {D J E} (dom : Bool) (parse : D → Option J) (a : D) (x : J) (e c : E)
    (ha : parse a = some x) :
    ∃ (react : Nat → React) (w : W J E),
      run dom parse react [.opened e, .message a, .close c, .resume true] start = .ok w ∧
      w.log = [.ready e, .msg x] ∧ w.alive = true ∧ w.pending = false ∧
      heard parse [.opened e, .message a, .close c, .resume true] =
        [.ready e, .msg x, .err c] := by
  refine ⟨fun n => if n = 1 then .later else .now, ?_⟩
  obtain ⟨w, h, g, l⟩ := run_good dom parse (fun n => if n = 1 then .later else .now)
    [.opened e, .message a, .close c, .resume true] .connecting (start : W J E) good_start
  refine ⟨w, h, ?_, ?_⟩
  · rw [l]; simp [start, trace, next, after, ha]
  · have hp : (trace (J := J) parse (fun n => if n = 1 then React.later else .now) .connecting
        (start : W J E).count [.opened e, .message a, .close c, .resume true]).1 = .reading := by
      simp [start, trace, next, after, ha]
    rw [hp] at g
    obtain ⟨_, _, _, _, _, _, h3, h4⟩ := g
    exact ⟨h3, h4, by simp [heard, reading, ha]⟩

example : exParse (1, true) = some 1 ∧ exParse (2, true) = some 2 := by decide

/-! ## C84: safe for every endpoint -/

theorem trace_shape {D J E} (parse : D → Option J) (react : Nat → React) (is : List (In D E)) :
    ∀ (p : Phase) (k : Nat),
    (messages (trace parse react p k is).2).Sublist (arrived (J := J) parse is) ∧
    (∀ x ∈ (trace (J := J) parse react p k is).2.dropLast, isErr x = false) ∧
    (p = .over → (trace (J := J) parse react p k is).2 = []) := by
  induction is with
  | nil => intro p k; simp [trace, messages, arrived]
  | cons i is ih =>
    intro p k
    refine ⟨?_, ?_, fun h => by rw [h, trace_over]⟩
    · have h := (ih (next (J := J) parse react p k i).1
        (k + (next (J := J) parse react p k i).2.length)).1
      have hh : messages (trace parse react p k (i :: is)).2 =
          messages (next parse react p k i).2 ++
          messages (trace parse react (next (J := J) parse react p k i).1
            (k + (next (J := J) parse react p k i).2.length) is).2 := by
        simp [trace, messages, List.filterMap_append]
      rw [hh]
      have hi : (messages (next parse react p k i).2).Sublist (arrived (J := J) parse [i]) := by
        cases p <;> cases i <;> simp [next, messages, arrived]
        rename_i d
        cases hp : parse d <;> simp [hp]
      have ha : arrived (J := J) parse (i :: is) = arrived parse [i] ++ arrived parse is := by
        simp [arrived, ← List.filterMap_append]
      rw [ha]
      exact hi.append h
    · have h := (ih (next (J := J) parse react p k i).1
        (k + (next (J := J) parse react p k i).2.length)).2
      have hn : (next (J := J) parse react p k i).2 = [] ∨
          (∃ x, (next (J := J) parse react p k i).2 = [x] ∧ (isErr x = false ∨
            (next (J := J) parse react p k i).1 = .over)) := by
        cases p <;> cases i <;> simp [next, isErr]
        rename_i d
        cases hp : parse d <;> simp [isErr]
      simp only [trace]
      rcases hn with hn | ⟨x, hn, hx⟩
      · rw [hn]; rw [hn] at h; exact h.1
      · rw [hn]; rw [hn] at h
        intro y hy
        rcases ht : (trace (J := J) parse react (next (J := J) parse react p k i).1
            (k + [x].length) is).2 with _ | ⟨z, zs⟩
        · rw [ht] at hy; simp at hy
        · rw [ht] at hy
          simp only [List.singleton_append, List.dropLast_cons_cons, List.mem_cons] at hy
          rcases hy with rfl | hy
          · rcases hx with hx | hx
            · exact hx
            · rw [h.2 hx] at ht; exact absurd ht (by simp)
          · exact h.1 y (by rw [ht]; exact hy)

/-- C84.  Whatever the endpoint does with what it is given, now or later, and for every history of
the socket: no callback is called after it was destroyed; no message is invented, repeated or
moved; nothing is heard after an error; and there are never more than six listeners. -/
theorem client_safe {D J E} (dom : Bool) (parse : D → Option J) (react : Nat → React) (is : List (In D E)) :
    ∃ w, run dom parse react is (start : W J E) = .ok w ∧
      (messages w.log).Sublist (arrived parse is) ∧
      (∀ x ∈ w.log.dropLast, isErr x = false) ∧
      w.listeners.length ≤ 6 := by
  obtain ⟨w, e, g, l⟩ := run_good dom parse react is .connecting (start : W J E) good_start
  have hl : w.log = (trace parse react .connecting (start : W J E).count is).2 := by
    rw [l]; simp [start]
  have hs := trace_shape (J := J) parse react is .connecting (start : W J E).count
  refine ⟨w, e, ?_, ?_, ?_⟩
  · rw [hl]; exact hs.1
  · rw [hl]; exact hs.2.1
  · revert g
    generalize (trace (J := J) parse react .connecting (start : W J E).count is).1 = p
    cases p <;> simp only [Good]
    · rintro ⟨h, _⟩; simp [h]
    · rintro ⟨_, _, _, h, _⟩; simp [h]
    · rintro ⟨h, _⟩; simp [h]
    · rintro ⟨h, _⟩; simp [h]

example : (match run true exParse (fun n => if n = 2 then .later else .now)
    [.opened 0, .message (1, true), .message (2, true), .message (3, true), .resume true,
      .message (4, true), .close 9, .error 9] (start : W Nat Nat) with
    | .ok w => (w.log, w.listeners.length, w.nextScope)
    | .ub => ([], 0, 0)) = ([.ready 0, .msg 1, .msg 2, .msg 4, .err 9], 3, 5) := by decide

end Nbdl.ClientJs
