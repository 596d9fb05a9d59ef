import Verif.JsBind.Witness
/-!
# Theorems about the JavaScript binder

`Sane e`: the engine converts text as RFC 3629 and RFC 2781 say (see `exEngine` for one that does).
`Holds texts t v`: every string in `v` is text in UTF-8, and its buffers are smaller than 2^29 bytes.
-/
namespace Nbdl.JsBind
open Nbdl.Bind (Ty Tys denote members alts init initAll Json Name encodeText)
open Spec

/-! ## C79: in the browser -/

/-- C79: a value written by the binder in the browser is read back, iff its strings are ASCII without NUL.  Only part
of the property: see the violations below. -/
theorem js_roundtrip_partial {e : Engine} (he : Sane e) (t : Ty) (hw : Wf t) (v : denote t) (hv : Holds texts t v) :
    read e t (write e t v) (init t) = some v ↔ Holds atHome t v := by
  rw [write_enc]
  exact enc_read he (home_good he) t hw v hv

/-- C79 violated: a letter beyond ASCII comes back as one byte that is no text. -/
theorem js_text_violated {e : Engine} (he : Sane e) :
    read e .str (write e .str (utf8 ['é'])) [] = some [0xE9#8] ∧ ¬ IsText [0xE9#8] := by
  have h1 : (utf8 ['é']).takeWhile (· ≠ 0#8) = utf8 ['é'] := by decide
  have h2 : utf16 ['é'] = [0xE9#16] := by decide
  refine ⟨?_, ?_⟩
  · simp only [read, write, writeText, readText, utf8ToString, h1, he.decode, h2]
    rfl
  · rintro ⟨cs, h⟩
    have hd := congrArg decode8 h
    rw [decode8_utf8] at hd
    have : decode8 [0xE9#8] = [] := by decide
    rw [this] at hd
    subst hd
    cases h

/-- C79 violated: a string is cut at its first NUL. -/
theorem js_nul_violated {e : Engine} (he : Sane e) :
    read e .str (write e .str [97#8, 0#8, 98#8]) [] = some [97#8] := by
  have h1 : [97#8, 0#8, 98#8].takeWhile (· ≠ 0#8) = utf8 ['a'] := by decide
  simp only [read, write, writeText, readText, utf8ToString, h1, he.decode]
  decide

/-! ## C80: from the browser to the server -/

/-- C80: what a client sends is what the server reads, iff its unsigned numbers are less than 2^31, its enumerators not
negative and its strings without NUL.  Only part of the property: see the violations below. -/
theorem to_server_partial {e : Engine} (he : Sane e) (t : Ty) (hw : Wf t) (v : denote t) (hv : Holds texts t v) :
    Bind.read t (toServer e (write e t v)) (init t) = some v ↔ Holds up t v := by
  rw [Bind.reader_exact]
  exact up_aux he t hw v hv

/-- C80 violated: an unsigned number of 2^31 or more is sent as a negative one, and the server raises an exception. -/
theorem to_server_unsigned_violated (e : Engine) (n : denote .uint) (h : 2 ^ 31 ≤ n.toNat) :
    toServer e (write e .uint n) = .num ((n.toNat : Int) - 2 ^ 32) ∧
    ∀ old, Bind.read .uint (toServer e (write e .uint n)) old = none := by
  have hn := n.isLt
  have hi : n.toInt = (n.toNat : Int) - 2 ^ 32 := by
    rw [BitVec.toInt_eq_toNat_cond]; split <;> omega
  refine ⟨by simp only [write, toServer, hi], fun old => ?_⟩
  simp only [write, toServer, hi, Bind.read, Bind.asUInt]
  rw [if_neg (by omega)]
example : 2 ^ 31 ≤ (BitVec.ofNat 32 4000000000).toNat := by decide

/-- C80 violated: so is a negative enumerator refused. -/
theorem to_server_enum_violated (e : Engine) (n : denote .enum) (h : n.toInt < 0) (old : denote .enum) :
    Bind.read .enum (toServer e (write e .enum n)) old = none := by
  simp only [write, toServer, Bind.read, Bind.asUInt]
  rw [if_neg (by omega)]
example : (BitVec.ofInt 32 (-1)).toInt < 0 := by decide

/-! ## C81: from the server to the browser -/

/-- C81: what the server sends is what a client reads, iff its strings are ASCII and its containers not empty.  Only
part of the property: see the violations below. -/
theorem to_client_partial {e : Engine} (he : Sane e) (t : Ty) (hw : Wf t) (v : denote t) (hv : Holds texts t v) :
    read e t (toClient e (Bind.write t v)) (init t) = some v ↔ Holds down t v := by
  rw [down_enc]
  exact enc_read he (fromServer_good he) t hw v hv

/-- C81 violated: other text is changed. -/
theorem to_client_text_violated {e : Engine} (he : Sane e) (s : denote .str) (h : IsText s) (hn : ¬ Ascii s) :
    ∃ s', read e .str (toClient e (Bind.write .str s)) [] = some s' ∧ s' ≠ s := by
  refine ⟨(e.decode s).map low, rfl, fun h' => hn ?_⟩
  exact (text_down he s h).1 h'
example : IsText (utf8 ['a', 'é']) ∧ ¬ Ascii (utf8 ['a', 'é']) := by
  refine ⟨⟨_, rfl⟩, fun h => ?_⟩
  have := h 0xC3#8 (by decide)
  revert this
  decide

/-- C81 violated: different text from the server becomes the same text: `Ǿ` and `þ`. -/
theorem to_client_collide_violated {e : Engine} (he : Sane e) :
    read e .str (toClient e (Bind.write .str (utf8 ['Ǿ']))) []
      = read e .str (toClient e (Bind.write .str (utf8 ['þ']))) [] := by
  simp only [read, Bind.write, toClient, readText, he.decode]
  decide

/-- C81 violated: an empty container is sent as null, and the client raises an exception. -/
theorem to_client_empty_violated (e : Engine) (t : Ty) (old : denote (.cont t)) :
    read e (.cont t) (toClient e (Bind.write (.cont t) [])) old = none := by
  simp [Bind.write, toClient, read, lengthOf]

/-! ### The hypotheses are met -/

instance (s : List Byte) : Decidable (Ascii s) := inferInstanceAs (Decidable (∀ b ∈ s, _))

/-- `Bind.exTy` with a negative number, text, and an optional part. -/
theorem ex_wf : Wf Bind.exTy := by
  refine ⟨⟨by decide, ?_⟩, ?_⟩
  · intro n hn
    simp only [Bind.Spec.names, List.mem_cons, List.not_mem_nil, or_false] at hn
    rcases hn with rfl | rfl | rfl
    · exact ⟨by decide, by decide⟩
    · exact ⟨by decide, by decide⟩
    · exact ⟨by decide, by decide⟩
  · simp [WfAll, Wf, Bind.Spec.names]

theorem ex_texts : Holds texts Bind.exTy Bind.exVal := by
  refine ⟨trivial, ⟨trivial, ?_⟩, ⟨trivial, trivial, trivial⟩, trivial⟩
  intro s hs
  apply isText_of_ascii
  have : s = ascii "ab" ∨ s = [] := by simpa [Bind.exVal] using hs
  rcases this with rfl | rfl
  · decide
  · decide

theorem ex_holds : Holds atHome Bind.exTy Bind.exVal ∧ Holds up Bind.exTy Bind.exVal ∧ Holds down Bind.exTy Bind.exVal := by
  have h : ∀ s ∈ [ascii "ab", []], Ascii s ∧ 0#8 ∉ s := by
    intro s hs
    have : s = ascii "ab" ∨ s = [] := by simpa using hs
    rcases this with rfl | rfl
    · exact ⟨by decide, by decide⟩
    · exact ⟨by decide, by decide⟩
  refine ⟨⟨trivial, ⟨trivial, h⟩, ⟨trivial, trivial, trivial⟩, trivial⟩,
    ⟨show (7#32).toNat < 2 ^ 31 by decide, ⟨trivial, fun s hs => (h s hs).2⟩, ⟨trivial, trivial, trivial⟩, trivial⟩,
    ⟨trivial, ⟨show 2 ≠ 0 by decide, fun s hs => (h s hs).1⟩, ⟨trivial, trivial, trivial⟩, trivial⟩⟩

example : read exEngine Bind.exTy (write exEngine Bind.exTy Bind.exVal) (init Bind.exTy) = some Bind.exVal :=
  (js_roundtrip_partial exEngine_sane _ ex_wf _ ex_texts).2 ex_holds.1
example : Bind.read Bind.exTy (toServer exEngine (write exEngine Bind.exTy Bind.exVal)) (init Bind.exTy)
    = some Bind.exVal :=
  (to_server_partial exEngine_sane _ ex_wf _ ex_texts).2 ex_holds.2.1
example : read exEngine Bind.exTy (toClient exEngine (Bind.write Bind.exTy Bind.exVal)) (init Bind.exTy)
    = some Bind.exVal :=
  (to_client_partial exEngine_sane _ ex_wf _ ex_texts).2 ex_holds.2.2

/-! ## C82: malformed documents in the browser -/

/-- A number, as far as the reader is concerned. -/
def IsNumber : Ty → Prop
  | .uint => True
  | .int => True
  | .enum => True
  | _ => False

/-- Members that are numbers. -/
def NumbersOnly : Tys → Prop
  | .nil => True
  | .cons _ t ts => IsNumber t ∧ NumbersOnly ts

theorem number_read {e : Engine} {t : Ty} (ht : IsNumber t) (j : Js) (old : denote t) : ∃ v, read e t j old = some v := by
  cases t <;> simp only [IsNumber] at ht <;> exact ⟨_, rfl⟩

theorem numbers_readNamed {e : Engine} : (ts : Tys) → NumbersOnly ts → (j : Js) → (∀ n, ∃ x, prop e j n = some x) →
    (old : members ts) → ∃ v, readNamed e ts j old = some v
  | .nil, _, _, _, _ => ⟨(), rfl⟩
  | .cons n t ts, h, j, hj, old => by
    obtain ⟨x, hx⟩ := hj n
    obtain ⟨v, hv⟩ := number_read (e := e) h.1 x old.1
    obtain ⟨r, hr⟩ := numbers_readNamed ts h.2 j hj old.2
    exact ⟨(v, r), by simp only [readNamed, hx, hv, hr, Option.map_some]⟩

/-- C82 violated: an entity of numbers is read from every document but null, whatever is in it. -/
theorem js_reader_accepts_violated (e : Engine) (ts : Tys) (hn : NumbersOnly ts) (j : Js)
    (hj : j ≠ .undefined ∧ j ≠ .null) (old : denote (.record ts)) : ∃ v, read e (.record ts) j old = some v := by
  refine numbers_readNamed ts hn j (fun n => ?_) old
  cases j with
  | undefined => exact absurd rfl hj.1
  | null => exact absurd rfl hj.2
  | _ => exact ⟨_, rfl⟩
example : NumbersOnly (.cons (ascii "id") .uint (.cons (ascii "n") .int .nil)) := ⟨trivial, trivial, trivial⟩

/-- C82 violated: a member that is missing is read as zero. -/
theorem js_missing_member_violated (e : Engine) (n : Name) (old : denote (.record (.cons n .uint .nil))) :
    read e (.record (.cons n .uint .nil)) (.obj []) old = some (0#32, ()) := rfl

/-- C82 violated: a number that does not fit is cut to 32 bits. -/
theorem js_number_cut_violated (e : Engine) (n : Int) (old : denote .uint) :
    read e .uint (.num n) old = read e .uint (.num (n + 2 ^ 32)) old := by
  simp only [read, toInt32, Option.some.injEq]
  apply BitVec.eq_of_toNat_eq
  simp only [BitVec.toNat_ofInt]
  omega

/-- C82 violated: a truth value is read as the number one or zero, and nothing as zero. -/
theorem js_truth_violated (e : Engine) (old : denote .uint) :
    read e .uint (.bool true) old = some 1#32 ∧ read e .uint (.bool false) old = some 0#32 ∧
    read e .uint .null old = some 0#32 ∧ read e .uint .undefined old = some 0#32 ∧
    read e .int (.bool true) old = some 1#32 ∧ read e .enum (.bool true) old = some 1#32 :=
  ⟨rfl, rfl, rfl, rfl, rfl, rfl⟩

/-- C82 violated: a number is read as the empty string, and an array of numbers as a string of bytes. -/
theorem js_string_violated (e : Engine) (n : Int) (old : denote .str) :
    read e .str (.num n) old = some [] ∧ read e .str (.arr [.num 97, .num 98]) old = some (ascii "ab") := by
  refine ⟨rfl, ?_⟩
  simp only [read, readText, lengthOf]
  rfl

/-- C82 violated: text where a container is expected gives one element for each character. -/
theorem js_container_violated (e : Engine) (u v : Unit16) (old : denote (.cont .str)) :
    read e (.cont .str) (.str [u, v]) old = some [[low u], [low v]] := rfl

/-- C82 violated: an unknown alternative leaves the variant as it was, and an empty array is the first alternative if
that is empty. -/
theorem js_variant_violated (e : Engine) (t : Ty) (ts : Tys) (old : denote (.var t ts)) :
    (∀ id : Int, -2 ^ 31 ≤ id → id < 2 ^ 31 → id < 0 ∨ ((Bind.Spec.names ts).length : Int) < id →
      read e (.var t ts) (.num id) old = some old) ∧
    ∀ old', read e (.var .empty ts) (.arr []) old' = some (.inl ()) := by
  refine ⟨fun id h1 h2 h => ?_, fun old' => rfl⟩
  have hid : typeId e (.num id) = id := by
    simp only [typeId, toInt32, BitVec.toInt_ofInt, Int.bmod]
    split <;> omega
  have h0 : ¬ id = 0 := by omega
  rw [Bind.names_length] at h
  have h1 : ¬ (0 < id ∧ id < (ts.length : Int) + 1) := by omega
  simp only [read, hid, h0, h1, if_false]

theorem readMany_append (e : Engine) : (ts : Tys) → (js more : List Js) → (i : Nat) → (old : members ts) →
    i + ts.count ≤ js.length → readMany e ts (.arr (js ++ more)) i old = readMany e ts (.arr js) i old
  | .nil, _, _, _, _, _ => rfl
  | .cons _ t ts, js, more, i, old, h => by
    simp only [Tys.count] at h
    simp only [readMany]
    cases he : t.isEmpty with
    | true =>
      simp only [he, if_true] at h ⊢
      rw [readMany_append e ts js more i old.2 h]
    | false =>
      simp only [he, Bool.false_eq_true, if_false] at h ⊢
      have hi : (js ++ more)[i]? = js[i]? := List.getElem?_append_left (by omega)
      rw [item_arr, item_arr, hi, readMany_append e ts js more (i + 1) old.2 (by omega)]

/-- C82 violated: elements after the last member of a sequence are ignored. -/
theorem js_extra_elements_violated (e : Engine) (ts : Tys) (h : 2 ≤ ts.count) (js more : List Js)
    (hl : js.length = ts.count) (old : denote (.seq ts)) :
    read e (.seq ts) (.arr (js ++ more)) old = read e (.seq ts) (.arr js) old := by
  have h0 : ¬ ts.count = 0 := by omega
  have h1 : ¬ ts.count = 1 := by omega
  simp only [read, h0, h1, if_false]
  exact readMany_append e ts js more 0 old (by omega)

/-- C82: an exception is raised where a part is looked for in null. -/
theorem js_null_refused_partial (e : Engine) (t : Ty) :
    (∀ old, read e (.cont t) .null old = none) ∧ (∀ old, read e .str .null old = none) ∧
    (∀ old, read e .buf .null old = none) ∧ (∀ n ts old, read e (.record (.cons n t ts)) .null old = none) ∧
    ∀ ts old, 2 ≤ ts.count → read e (.seq ts) .null old = none := by
  refine ⟨fun old => rfl, fun old => rfl, fun old => rfl, fun n ts old => rfl, fun ts old h => ?_⟩
  have h0 : ¬ ts.count = 0 := by omega
  have h1 : ¬ ts.count = 1 := by omega
  simp only [read, h0, h1, if_false]
  clear h0 h1
  induction ts using Tys.rec (motive_1 := fun _ => True) with
  | nil => simp [Tys.count] at h
  | cons n t ts _ ih =>
    simp only [Tys.count] at h
    simp only [readMany]
    cases he : t.isEmpty with
    | true =>
      simp only [he, if_true] at h ⊢
      rw [ih old.2 h]; rfl
    | false => simp only [Bool.false_eq_true, if_false]; rfl
  | _ => trivial

end Nbdl.JsBind
