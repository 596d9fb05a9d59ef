import Verif.Server.Props
/-!
# C86, exactly: when a message sent downstream is lost in undefined behaviour

Further specification.
-/
namespace Nbdl.Server
namespace Spec

/-- Some message is sent while a connection is there which the sending ends. -/
def EndsWhileSending {M} (ends : Nat → Bool) (os : List (Op M)) (l : List Nat) : Prop :=
  ∃ pre m post c, os = pre ++ Op.send m :: post ∧ c ∈ present pre l ∧ ends c = true

end Spec
open Spec

theorem sendAll_some {M} (ends : Nat → Bool) (m : M) (cs : List Nat) (h : ∀ c ∈ cs, ends c = false) :
    ∀ s : C M, sendAll ends m cs s = .ok ⟨s.connections, s.sent ++ cs.map fun c => (c, m)⟩ := by
  induction cs with
  | nil => intro s; simp [sendAll]
  | cons c cs ih =>
    intro s
    have h1 := h c (by simp)
    simp [sendAll, h1, ih fun d hd => h d (by simp [hd])]

theorem ends_cons {M} (ends : Nat → Bool) (o : Op M) (os : List (Op M)) (l : List Nat) :
    EndsWhileSending ends (o :: os) l ↔
      ((∃ m, o = .send m ∧ ∃ c ∈ l, ends c = true) ∨ EndsWhileSending ends os (present [o] l)) := by
  have hp : ∀ pre : List (Op M), present (o :: pre) l = present pre (present [o] l) := by
    intro pre; cases o <;> rfl
  constructor
  · rintro ⟨pre, m, post, c, h, hc, he⟩
    cases pre with
    | nil =>
      simp only [List.nil_append, List.cons.injEq] at h
      exact .inl ⟨m, h.1, c, hc, he⟩
    | cons o' pre =>
      simp only [List.cons_append, List.cons.injEq] at h
      obtain ⟨rfl, rfl⟩ := h
      exact .inr ⟨pre, m, post, c, rfl, by rw [← hp]; exact hc, he⟩
  · rintro (⟨m, rfl, c, hc, he⟩ | ⟨pre, m, post, c, rfl, hc, he⟩)
    · exact ⟨[], m, os, c, rfl, hc, he⟩
    · exact ⟨o :: pre, m, post, c, rfl, by rw [hp]; exact hc, he⟩

theorem connRun_exact {M} (ends : Nat → Bool) (os : List (Op M)) :
    ∀ (s : C M), s.connections.Nodup → Once os s.connections →
      (EndsWhileSending ends os s.connections → connRun ends os s = .ub)
      ∧ (¬ EndsWhileSending ends os s.connections →
          connRun ends os s = .ok ⟨present os s.connections, s.sent ++ sends os s.connections⟩) := by
  induction os with
  | nil =>
    intro s _ _
    refine ⟨?_, fun _ => by simp [connRun, present, sends]⟩
    rintro ⟨pre, m, post, c, h, -⟩
    simp at h
  | cons o os ih =>
    intro s hn ho
    rw [ends_cons]
    cases o with
    | register c =>
      simp only [Once] at ho
      have hn' : (s.connections ++ [c]).Nodup := by
        rw [List.nodup_append]
        refine ⟨hn, by simp, ?_⟩
        intro a ha b hb
        simp at hb; subst hb
        rintro rfl; exact ho.1 ha
      have := ih ⟨s.connections ++ [c], s.sent⟩ hn' ho.2
      simp only [connRun, connStep, Cpp.bind, present, sends]
      simpa using this
    | unregister c =>
      simp only [Once] at ho
      have := ih ⟨s.connections.filter fun i => i ≠ c, s.sent⟩ (hn.filter _) ho
      simp only [connRun, connStep, Cpp.bind, present, sends]
      rw [erase_filter _ hn]
      simpa using this
    | send m =>
      simp only [Once] at ho
      by_cases he : ∃ c ∈ s.connections, ends c = true
      · refine ⟨fun _ => ?_, fun h => absurd (.inl ⟨m, rfl, he⟩) h⟩
        obtain ⟨c, hc, he⟩ := he
        simp only [connRun, broadcast_end_violated ends s m c hc he, Cpp.bind]
      · have hall : ∀ c ∈ s.connections, ends c = false := fun c hc =>
          Bool.eq_false_iff.2 fun h => he ⟨c, hc, h⟩
        have := ih ⟨s.connections, s.sent ++ s.connections.map fun c => (c, m)⟩ hn ho
        simp only [connRun, connStep, sendAll_some ends m _ hall, Cpp.bind, present, sends]
        refine ⟨?_, ?_⟩
        · rintro (⟨_, -, h⟩ | h)
          · exact absurd h he
          · exact this.1 h
        · intro h
          rw [this.2 fun h' => h (.inr h')]
          simp

/-- C86, exactly.  For every history of connections coming and going and of messages, and whichever
connections end when they are sent to: the behaviour is undefined if and only if a message is sent while one
of those is there; otherwise each message is given once to each connection which is there at the time, in the
order in which they came. -/
theorem broadcast_exact {M} (ends : Nat → Bool) (os : List (Op M)) (ho : Once os []) :
    (EndsWhileSending ends os [] → connRun ends os (⟨[], []⟩ : C M) = .ub)
    ∧ (¬ EndsWhileSending ends os [] →
        connRun ends os (⟨[], []⟩ : C M) = .ok ⟨present os [], sends os []⟩) := by
  have := connRun_exact ends os (⟨[], []⟩ : C M) (by simp) ho
  simpa using this

/-- Connection 2 ends when it is sent to; it is there when message 11 is sent. -/
example : EndsWhileSending (fun c => c == 2) exOps [] :=
  ⟨[.register 1, .send 10, .register 2, .register 3], 11, [.unregister 2, .send 12], 2, rfl, by decide, rfl⟩
/-- Connection 2 ends when it is sent to; it has gone when the message is sent. -/
example : ¬ EndsWhileSending (fun c => c == 2) ([.register 1, .register 2, .unregister 2, .send 10] : List (Op Nat)) [] := by
  simp [ends_cons, present]
  rintro ⟨pre, m, post, c, h, -⟩
  simp at h

end Nbdl.Server
