import Verif.ApiSig.Lemmas
/-!
# Properties of the signature of an API (C102)
-/
namespace Nbdl.ApiSig
open Nbdl.Bind Spec

/-- C102: the signature is the SHA-1 digest of a text … -/
theorem signature_is_digest (chr : Byte → Text) (f : List Byte) (t : CppTy) (s : List Byte) :
    signature chr f t = some s ↔
      ∃ g, tagOf t = some g ∧ s = Sha1.Spec.sha1 (prettyFunction chr (.ctstr f) g) := by
  have e : ∀ m, Sha1.finish (Sha1.update Sha1.init m) = Sha1.Spec.sha1 m := fun m => by
    rw [← Sha1.is_fips180]; rfl
  simp only [signature, Option.map_eq_some_iff, e]
  constructor
  · rintro ⟨g, h, rfl⟩; exact ⟨g, h, rfl⟩
  · rintro ⟨g, h, rfl⟩; exact ⟨g, h, rfl⟩

/-- C102: … and two types with the same text have the same format on the wire, if their buffers of fixed
size have the same sizes.  (Different texts with one digest would be a collision of SHA-1.)
Missing: the sizes of buffers, see below. -/
theorem same_text_same_wire_partial (chr : Byte → Text) (hc : Writes chr) (f f' : List Byte) (t t' : CppTy)
    (g g' : Tag) (hg : tagOf t = some g) (hg' : tagOf t' = some g') (hn : Spec.Named t) (hn' : Spec.Named t')
    (hs : sizes t = sizes t')
    (h : prettyFunction chr (.ctstr f) g = prettyFunction chr (.ctstr f') g') :
    f = f' ∧ ((bindOf t).isSome ↔ (bindOf t').isSome) ∧
      ∀ b b', bindOf t = some b → bindOf t' = some b' → SameWire b b' := by
  obtain ⟨hf, rfl⟩ := text_unique hc f f' g g' (tagOf_named t g hn hg) (tagOf_named t' g' hn' hg') h
  have e : bindOf t = bindOf t' := by rw [bind_tag t g hg, bind_tag t' g hg', hs]
  refine ⟨hf, by rw [e], fun b b' hb hb' => ?_⟩
  rw [e, hb', Option.some.injEq] at hb
  subst hb
  exact ⟨fun v => ⟨v, rfl⟩, fun v => ⟨v, rfl⟩, fun _ => rfl⟩

/-- C102 is violated: a type has a signature exactly if no entity and no enumeration occurs in it; but
messages consist of entities. -/
theorem signable_iff_violated (chr : Byte → Text) (f : List Byte) (t : CppTy) :
    (signature chr f t).isSome ↔ Signable t := by
  rw [← tagOf_some, signature, Option.isSome_map, Option.isSome_iff_exists]

/-- C102 is violated: buffers of different sizes have one signature, whatever the format; a document
written for three bytes is read as two zeros. -/
theorem buffer_size_violated (chr : Byte → Text) (f : List Byte) (n m : Nat) :
    signature chr f (.fixed n) = signature chr f (.fixed m) ∧
    bindOf (.fixed 2) = some (.fixed 2) ∧ bindOf (.fixed 3) = some (.fixed 3) ∧
    Bind.read (.fixed 2) (write (.fixed 3) fun _ => 7#8) (init (.fixed 2)) = some (fun _ => 0#8) ∧
    ¬ SameWire (.fixed 2) (.fixed 3) := by
  have hr : Bind.read (.fixed 2) (write (.fixed 3) fun _ => 7#8) (init (.fixed 2)) =
      some (fun _ => 0#8) := by
    have h : readBuffer false (write (.fixed 3) fun _ => 7#8) (List.ofFn fun _ : Fin 2 => 0#8) =
        some [0#8, 0#8] := by decide +kernel
    simp only [Bind.read, init, h, Option.map_some]
    congr 1
    funext i
    match i with
    | 0 => rfl
    | 1 => rfl
  have hr' : Bind.read (.fixed 3) (write (.fixed 3) fun _ => 7#8) (init (.fixed 3)) =
      some (fun _ => 7#8) := by
    have h : readBuffer false (write (.fixed 3) fun _ => 7#8) (List.ofFn fun _ : Fin 3 => 0#8) =
        some [7#8, 7#8, 7#8] := by decide +kernel
    simp only [Bind.read, init, h, Option.map_some]
    congr 1
    funext i
    match i with
    | 0 => rfl
    | 1 => rfl
    | 2 => rfl
  refine ⟨rfl, rfl, rfl, hr, fun hw => ?_⟩
  have h := hw.2.2 (write (.fixed 3) fun _ => 7#8)
  rw [hr, hr'] at h
  simp only [Option.map_some, write, Option.some.injEq, Json.str.injEq] at h
  have h1 : encodeText (List.ofFn fun _ : Fin 2 => 0#8) = ascii "AAA=" := by decide +kernel
  have h2 : encodeText (List.ofFn fun _ : Fin 3 => 7#8) = ascii "BwcH" := by decide +kernel
  rw [h1, h2] at h
  exact absurd h (by decide)

/-- The arguments as a list. -/
def Trees.list : Trees → List Tree
  | .nil => []
  | .cons a as => a :: as.list

theorem Trees.more_text : ∀ (a : Tree) (as : Trees),
    a.text ++ as.more = (ascii ", ").intercalate ((Trees.cons a as).list.map Tree.text)
  | a, .nil => by simp [Trees.more, Trees.list]
  | a, .cons b bs => by
    have ih := Trees.more_text b bs
    have hc : ascii ", " = [comma, blank] := by decide
    simp only [Trees.list, List.map_cons] at ih ⊢
    rw [List.intercalate_cons_cons, ← ih, Trees.more, hc]
    simp

/-- C102: what is hashed: the arguments of a template stand between angle brackets, with commas and
blanks between them; the two tags stand in the same way in the text of the function. -/
theorem text_written (chr : Byte → Text) (n : Text) (as : Trees) (f g : Tag) :
    (Tree.app n as).text = n ++ ascii "<" ++ (ascii ", ").intercalate (as.list.map Tree.text) ++ ascii ">" ∧
    prettyFunction chr f g = ascii "const char *nbdl::detail::api_signature_helper(T...) [T = <" ++
      (ascii ", ").intercalate [(f.tree chr).text, (g.tree chr).text] ++ ascii ">]" := by
  have hl : ascii "<" = [lt] := by decide
  have hg : ascii ">" = [gt] := by decide
  have hc : ascii ", " = [comma, blank] := by decide
  constructor
  · rw [Tree.text, hl, hg]
    cases as with
    | nil => simp [Trees.text, Trees.list]
    | cons a as => rw [Trees.text, Trees.more_text]; simp
  · rw [prettyFunction, hc, List.intercalate_cons_cons, List.intercalate_singleton]
    simp only [List.append_assoc, List.cons_append, List.nil_append]

example : ((Tag.sequence (.cons [] (.fund .int) (.cons [] .string .nil))).tree fun _ => []).text =
    ascii "nbdl::_b::tag::sequence<int, nbdl::_b::tag::string>" := by decide +kernel

/-- A way of writing characters: in unary. -/
def sampleChr (c : Byte) : Text := List.replicate (c.toNat + 1) 39#8
example : Writes sampleChr := by
  refine ⟨fun a b h => ?_, fun a => ⟨by simp [sampleChr], fun c hc => ?_⟩⟩
  · have := congrArg List.length h
    simp only [sampleChr, List.length_replicate] at this
    exact BitVec.eq_of_toNat_eq (by omega)
  · rw [List.eq_of_mem_replicate hc]; decide

/-- A message: a variant of a removal and of a map with a text and a list of numbers. -/
def sampleTy : CppTy :=
  .var (.cls (ascii "app::removed"))
    (.cons [] (.map (.cons (ascii "title") .str (.cons (ascii "sizes") (.cont (.fund .uint)) .nil)))
      (.cons [] (.seq (.cons [] (.fixed 16) (.cons [] (.fund .int) .nil))) .nil))
example : Signable sampleTy := by simp [sampleTy, Signable, SignableAll]
example : Spec.Named sampleTy := by
  refine ⟨⟨by decide, fun f => by cases f <;> decide, by decide⟩, ?_⟩
  simp [Spec.Named, NamedAll]
example : sizes sampleTy = [16] := rfl
example : (bindOf sampleTy).isSome = true := rfl
/-- An entity is a message of any application. -/
example : ¬ Signable (.cont (.entity (.cons (ascii "id") (.fund .uint) .nil))) := by simp [Signable]

end Nbdl.ApiSig
