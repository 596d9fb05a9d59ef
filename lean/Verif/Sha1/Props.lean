import Verif.Sha1.Lemmas
/-! SHA-1 properties C19 and C20. -/
namespace Nbdl.Sha1

/-- The digest of a message fed in pieces. -/
def digestOf (chunks : List (List Byte)) : List Byte := finish (chunks.foldl update init)

/-- C19: feeding a message in any pieces gives the digest of the message fed at once. -/
theorem chunk_independent (chunks : List (List Byte)) :
    digestOf chunks = digestOf [chunks.flatten] := by
  unfold digestOf
  have key : ∀ (chunks : List (List Byte)) (ctx : Ctx), ctx.buf.length < 64 →
      chunks.foldl update ctx = update ctx chunks.flatten := by
    intro chunks
    induction chunks with
    | nil =>
      intro ctx h
      rw [List.foldl_nil, List.flatten_nil, update_eq _ _ h, absorb, if_pos (by simpa using h)]
      simp
    | cons c cs ih =>
      intro ctx h
      have e := update_eq ctx c h
      rw [List.foldl_cons, List.flatten_cons, ih _ (by rw [e]; exact absorb_buf _ _ _), e,
        update_eq _ _ (absorb_buf _ _ _), update_eq _ _ h, ← List.append_assoc]
      exact (absorb_append _ _ _ _).symm
  rw [key chunks init (by decide)]
  simp

/-- Two ways of cutting the same message give the same digest. -/
theorem chunk_independent' (a b : List (List Byte)) (h : a.flatten = b.flatten) :
    digestOf a = digestOf b := by
  rw [chunk_independent a, chunk_independent b, h]

example : [ascii "ab", [], ascii "c"].flatten = [ascii "a", ascii "bc"].flatten := by decide

/-- C20: the digest computed for a message is the FIPS 180-4 digest.  (No length bound is needed:
the specification also takes the bit length modulo 2^64.) -/
theorem is_fips180 (m : List Byte) : digestOf [m] = Spec.sha1 m := by
  unfold digestOf
  rw [List.foldl_cons, List.foldl_nil, update_eq _ _ (by decide)]
  have e : init.digest = toList Spec.h0 := rfl
  rw [e, finish_absorb]
  have hp : padWith (init.buf ++ m) (init.blocks * 64 + (init.buf ++ m).length) = Spec.pad m := by
    simp [padWith, Spec.pad, init, lenBytes]
  rw [hp]
  simp [Spec.sha1, toList]

/-- The well-known test vector, computed in the kernel. -/
example : Spec.sha1 (ascii "abc") =
    [0xa9#8, 0x99#8, 0x3e#8, 0x36#8, 0x47#8, 0x06#8, 0x81#8, 0x6a#8, 0xba#8, 0x3e#8,
     0x25#8, 0x71#8, 0x78#8, 0x50#8, 0xc2#8, 0x6c#8, 0x9c#8, 0xd0#8, 0xd8#8, 0x9d#8] := by
  rw [← is_fips180]
  unfold digestOf
  rw [List.foldl_cons, List.foldl_nil, update_init, absorb, if_pos (by decide)]
  decide +kernel

end Nbdl.Sha1
