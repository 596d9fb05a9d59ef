import Verif.RawMsg.Props
/-!
# Exactly which bodies survive the stream
-/
namespace Nbdl.RawMsg
open Spec

theorem write_long (body : List Byte) :
    write body = write (body.take (body.length % 2 ^ 32)) ++ body.drop (body.length % 2 ^ 32) := by
  have e1 : BitVec.ofNat 32 body.length
      = BitVec.ofNat 32 (body.take (body.length % 2 ^ 32)).length := by
    apply BitVec.eq_of_toNat_eq
    simp only [BitVec.toNat_ofNat, List.length_take]
    omega
  unfold write lengthBytes
  rw [← e1]
  simp

/-- C70, exactly: the reader gets the bodies which were written, whatever pieces the network makes of
them, just when each of them is shorter than 2³² bytes. -/
theorem write_read_exact (bodies : List (List Byte)) :
    (∀ pieces : List (List Byte), pieces.flatten = bodies.flatMap write →
      (read (.length []) pieces).2 = bodies) ↔ ∀ b ∈ bodies, b.length < 2 ^ 32 := by
  constructor
  · intro h
    have h0 := h [bodies.flatMap write] (by simp)
    rw [read_flatten] at h0
    simp only [List.flatten_cons, List.flatten_nil, List.append_nil] at h0
    clear h
    induction bodies with
    | nil => simp
    | cons b bs ih =>
      have hb : b.length < 2 ^ 32 := by
        rw [List.flatMap_cons, write_long, List.append_assoc, chunk_append,
          chunk_write _ (by simp; omega)] at h0
        simp only [List.cons_append, List.nil_append, List.cons.injEq] at h0
        have := congrArg List.length h0.1
        simp at this
        omega
      intro b' hb'
      rcases List.mem_cons.1 hb' with rfl | hb'
      · exact hb
      · refine ih ?_ b' hb'
        rw [List.flatMap_cons, chunk_append, chunk_write b hb] at h0
        simpa using h0
  · intro h pieces hp
    rw [write_read_partial bodies h pieces hp]

example : ∀ b ∈ [ascii "one", [], ascii "three"], b.length < 2 ^ 32 := by decide

theorem reception_all (bodies : List (List Byte)) :
    reception (M := List Byte) ⟨some, fun _ => .other, fun _ => false⟩ bodies = bodies.map .action := by
  induction bodies with
  | nil => rfl
  | cons b bs ih => simp [reception, ih]

/-- C71, exactly: every receiver does what the bodies which were written ask for, whatever the pieces, just
when each of them is shorter than 2³² bytes. -/
theorem send_receive_exact (bodies : List (List Byte)) :
    (∀ (app : App (List Byte)) (pieces : List (List Byte)), pieces.flatten = bodies.flatMap write →
      (recv app (.receiving (.length [])) (pieces.map .bytes)).2 = reception app bodies)
      ↔ ∀ b ∈ bodies, b.length < 2 ^ 32 := by
  constructor
  · intro h
    rw [← write_read_exact]
    intro pieces hp
    have h1 := h ⟨some, fun _ => .other, fun _ => false⟩ pieces hp
    rw [receive_correct, reception_all, reception_all] at h1
    have : ∀ a b : List (List Byte), a.map Obs.action = b.map Obs.action → a = b := by
      intro a
      induction a with
      | nil => intro b hb; cases b <;> simp_all
      | cons x xs ih =>
        intro b hb
        cases b with
        | nil => simp at hb
        | cons y ys =>
          simp only [List.map_cons, List.cons.injEq, Obs.action.injEq] at hb
          rw [hb.1, ih ys hb.2]
    exact this _ _ h1
  · intro h app pieces hp
    exact send_receive_partial app bodies h pieces hp

end Nbdl.RawMsg
