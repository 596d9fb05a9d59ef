import Verif.ApiSig.Spec
namespace Nbdl.ApiSig
open Nbdl.Bind Spec

/-! ## The text determines the tree -/

def NoBr (n : Text) : Prop := ∀ c ∈ n, c ≠ lt ∧ c ≠ gt ∧ c ≠ comma

def Stop : Text → Prop
  | [] => True
  | c :: _ => c = lt ∨ c = gt ∨ c = comma

theorem name_unique : ∀ (n n' : Text) (r r' : Text), NoBr n → NoBr n' → Stop r → Stop r' →
    n ++ r = n' ++ r' → n = n' ∧ r = r'
  | [], [], _, _, _, _, _, _, h => ⟨rfl, h⟩
  | [], c :: n', r, r', _, hn', hr, _, h => by
    rw [List.nil_append, List.cons_append] at h
    subst h
    have := hn' c (by simp)
    simp only [Stop] at hr
    rcases hr with hr | hr | hr <;> simp_all
  | c :: n, [], r, r', hn, _, _, hr', h => by
    rw [List.nil_append, List.cons_append] at h
    subst h
    have := hn c (by simp)
    simp only [Stop] at hr'
    rcases hr' with hr | hr | hr <;> simp_all
  | c :: n, c' :: n', r, r', hn, hn', hr, hr', h => by
    rw [List.cons_append, List.cons_append, List.cons.injEq] at h
    have := name_unique n n' r r' (fun x hx => hn x (by simp [hx])) (fun x hx => hn' x (by simp [hx])) hr hr' h.2
    exact ⟨by rw [h.1, this.1], this.2⟩

/-- What follows an argument. -/
def Stop' : Text → Prop
  | [] => True
  | c :: _ => c = gt ∨ c = comma

theorem stop_lt (r : Text) : Stop (lt :: r) := .inl rfl
theorem stop_lt' (r s : Text) : Stop (lt :: r ++ s) := .inl rfl
theorem stop_comma (r : Text) : Stop' (comma :: r) := .inr rfl
theorem stop_end : Stop' (ascii ">]") := .inl rfl
theorem stop_gt (r : Text) : Stop' ([gt] ++ r) := .inl rfl

theorem Stop'.stop {r : Text} (h : Stop' r) : Stop r := by
  cases r with
  | nil => trivial
  | cons c r => exact .inr h

mutual
def Tree.Ok : Tree → Prop
  | .name n => Plain n
  | .app n as => Plain n ∧ as.Ok
def Trees.Ok : Trees → Prop
  | .nil => True
  | .cons a as => a.Ok ∧ as.Ok
end

theorem Tree.text_ne {t : Tree} (h : t.Ok) : ∃ c r, t.text = c :: r ∧ c ≠ lt ∧ c ≠ gt ∧ c ≠ comma := by
  cases t with
  | name n =>
    rw [Tree.Ok] at h
    match n, h with
    | c :: n, h => exact ⟨c, n, by rw [Tree.text], h.2 c (by simp)⟩
    | [], h => exact absurd rfl h.1
  | app n as =>
    rw [Tree.Ok] at h
    match n, h with
    | c :: n, h => exact ⟨c, _, by rw [Tree.text]; rfl, h.1.2 c (by simp)⟩
    | [], h => exact absurd rfl h.1.1

theorem more_stop (as : Trees) (r : Text) (h : Stop' r) : Stop' (as.more ++ r) := by
  cases as with
  | nil => rw [Trees.more]; exact h
  | cons a as => rw [Trees.more]; exact .inr rfl

mutual
theorem tree_unique : ∀ (t t' : Tree) (r r' : Text), t.Ok → t'.Ok → Stop' r → Stop' r' →
    t.text ++ r = t'.text ++ r' → t = t' ∧ r = r'
  | .name n, .name n', r, r', h, h', hr, hr', e => by
    simp only [Tree.Ok] at h h'
    rw [Tree.text, Tree.text] at e
    have := name_unique n n' r r' h.2 h'.2 hr.stop hr'.stop e
    exact ⟨by rw [this.1], this.2⟩
  | .name n, .app n' as', r, r', h, h', hr, hr', e => by
    simp only [Tree.Ok] at h h'
    rw [Tree.text, Tree.text, List.append_assoc] at e
    have := (name_unique n n' _ _ h.2 h'.1.2 hr.stop (stop_lt' _ _) e).2
    subst this
    rcases hr with hr | hr <;> simp [lt, gt, comma] at hr
  | .app n as, .name n', r, r', h, h', hr, hr', e => by
    simp only [Tree.Ok] at h h'
    rw [Tree.text, Tree.text, List.append_assoc] at e
    have := (name_unique n n' _ _ h.1.2 h'.2 (stop_lt' _ _) hr'.stop e).2
    rw [← this] at hr'
    rcases hr' with hr | hr <;> simp [lt, gt, comma] at hr
  | .app n as, .app n' as', r, r', h, h', hr, hr', e => by
    simp only [Tree.Ok] at h h'
    rw [Tree.text, Tree.text, List.append_assoc, List.append_assoc] at e
    obtain ⟨hn, e⟩ := name_unique n n' _ _ h.1.2 h'.1.2 (stop_lt' _ _) (stop_lt' _ _) e
    rw [List.cons_append, List.cons_append, List.cons.injEq] at e
    have e := e.2
    rw [List.append_assoc, List.append_assoc] at e
    have := args_unique as as' r r' h.2 h'.2 e
    exact ⟨by rw [hn, this.1], this.2⟩
theorem args_unique : ∀ (as as' : Trees) (r r' : Text), as.Ok → as'.Ok →
    as.text ++ ([gt] ++ r) = as'.text ++ ([gt] ++ r') → as = as' ∧ r = r'
  | .nil, .nil, r, r', _, _, e => by simpa [Trees.text] using e
  | .nil, .cons a as, r, r', _, h', e => by
    rw [Trees.Ok] at h'
    obtain ⟨c, s, hc, h2⟩ := Tree.text_ne h'.1
    simp only [Trees.text, hc] at e
    simp only [List.nil_append, List.cons_append, List.append_assoc, List.cons.injEq] at e
    exact absurd e.1.symm h2.2.1
  | .cons a as, .nil, r, r', h, _, e => by
    rw [Trees.Ok] at h
    obtain ⟨c, s, hc, h2⟩ := Tree.text_ne h.1
    simp only [Trees.text, hc] at e
    simp only [List.nil_append, List.cons_append, List.append_assoc, List.cons.injEq] at e
    exact absurd e.1 h2.2.1
  | .cons a as, .cons a' as', r, r', h, h', e => by
    rw [Trees.Ok] at h h'
    rw [Trees.text, Trees.text, List.append_assoc, List.append_assoc] at e
    obtain ⟨ha, e⟩ := tree_unique a a' _ _ h.1 h'.1 (more_stop as _ (stop_gt _)) (more_stop as' _ (stop_gt _)) e
    have := more_unique as as' r r' h.2 h'.2 e
    exact ⟨by rw [ha, this.1], this.2⟩
theorem more_unique : ∀ (as as' : Trees) (r r' : Text), as.Ok → as'.Ok →
    as.more ++ ([gt] ++ r) = as'.more ++ ([gt] ++ r') → as = as' ∧ r = r'
  | .nil, .nil, r, r', _, _, e => by simpa [Trees.more] using e
  | .nil, .cons a as, r, r', _, _, e => by simp [Trees.more, gt, comma] at e
  | .cons a as, .nil, r, r', _, _, e => by simp [Trees.more, gt, comma] at e
  | .cons a as, .cons a' as', r, r', h, h', e => by
    rw [Trees.Ok] at h h'
    rw [Trees.more, Trees.more] at e
    simp only [List.cons_append, List.cons.injEq, true_and, List.append_assoc] at e
    obtain ⟨ha, e⟩ := tree_unique a a' _ _ h.1 h'.1 (more_stop as _ (stop_gt _)) (more_stop as' _ (stop_gt _)) e
    have := more_unique as as' r r' h.2 h'.2 e
    exact ⟨by rw [ha, this.1], this.2⟩
end

/-! ## The tree determines the tag -/

theorem chars_inj {chr : Byte → Text} (hc : Writes chr) : ∀ {cs cs' : List Byte},
    chars chr cs = chars chr cs' → cs = cs'
  | [], [], _ => rfl
  | [], _ :: _, h => by simp [chars] at h
  | _ :: _, [], h => by simp [chars] at h
  | c :: cs, c' :: cs', h => by
    simp only [chars, Trees.cons.injEq, Tree.name.injEq] at h
    rw [hc.1 _ _ h.1, chars_inj hc h.2]

theorem fund_inj {f f' : Fund} (h : f.name = f'.name) : f = f' := by
  cases f <;> cases f' <;> first | rfl | (exact absurd h (by decide))

theorem fund_ns (f : Fund) : ¬ tagNs <+: f.name := by cases f <;> decide

mutual
/-- The names in a tag are those of a program, and only maps have keys. -/
def Tag.Named : Tag → Prop
  | .cls n => UserName n
  | .type n => Plain n
  | .const v => Plain v
  | .container g => g.Named
  | .sequence gs => gs.Named false
  | .map gs => gs.Named true
  | .variant gs => gs.Named false
  | _ => True
def Tags.Named (keys : Bool) : Tags → Prop
  | .nil => True
  | .cons n g gs => (keys = false → n = []) ∧ g.Named ∧ gs.Named keys
end

/-- Which kind of tag. -/
def Tag.kind : Tag → Nat
  | .fund _ => 0 | .cls _ => 1 | .type _ => 2 | .const _ => 3 | .ctstr _ => 4 | .string => 5
  | .buffer => 6 | .dynamicBuffer => 7 | .container _ => 8 | .sequence _ => 9 | .map _ => 10 | .variant _ => 11

theorem ns_prefix (s : Text) : tagNs <+: tagNs ++ s := ⟨s, rfl⟩

theorem kind_eq {chr : Byte → Text} {g g' : Tag} (h : g.Named) (h' : g'.Named)
    (e : g.tree chr = g'.tree chr) : g.kind = g'.kind := by
  cases g <;> cases g' <;> first
    | rfl
    | (simp only [Tag.tree, reduceCtorEq] at e; done)
    | (exfalso; simp only [Tag.tree, Tree.app.injEq, List.append_cancel_left_eq] at e
       exact absurd e.1 (by decide))
    | (exfalso; simp only [Tag.tree, Tree.name.injEq, List.append_cancel_left_eq] at e
       first
       | (revert e; decide)
       | (simp only [Tag.Named] at h; exact h.2.1 _ e)
       | (simp only [Tag.Named] at h'; exact h'.2.1 _ e.symm)
       | (simp only [Tag.Named] at h; rw [e] at h; exact h.2.2 (ns_prefix _))
       | (simp only [Tag.Named] at h'; rw [← e] at h'; exact h'.2.2 (ns_prefix _))
       | (exact fund_ns _ (e ▸ ns_prefix _))
       | (rename_i f; exact fund_ns f (by rw [e]; exact ns_prefix _))
       | (rename_i f; exact fund_ns f (by rw [← e]; exact ns_prefix _)))

mutual
theorem tag_unique {chr : Byte → Text} (hc : Writes chr) : ∀ (g g' : Tag), g.Named → g'.Named →
    g.tree chr = g'.tree chr → g = g'
  | .fund f, g', h, h', e => by
    have hk := kind_eq h h' e
    cases g' <;> simp only [Tag.kind] at hk <;> first | cases hk | skip
    simp only [Tag.tree, Tree.name.injEq] at e
    rw [fund_inj e]
  | .cls n, g', h, h', e => by
    have hk := kind_eq h h' e
    cases g' <;> simp only [Tag.kind] at hk <;> first | cases hk | skip
    simp only [Tag.tree, Tree.name.injEq] at e
    rw [e]
  | .type n, g', h, h', e => by
    have hk := kind_eq h h' e
    cases g' <;> simp only [Tag.kind] at hk <;> first | cases hk | skip
    simp only [Tag.tree, Tree.name.injEq, Tree.app.injEq, Trees.cons.injEq] at e
    rw [e.2.1]
  | .const v, g', h, h', e => by
    have hk := kind_eq h h' e
    cases g' <;> simp only [Tag.kind] at hk <;> first | cases hk | skip
    simp only [Tag.tree, Tree.name.injEq, Tree.app.injEq, Trees.cons.injEq] at e
    rw [e.2.1]
  | .ctstr v, g', h, h', e => by
    have hk := kind_eq h h' e
    cases g' <;> simp only [Tag.kind] at hk <;> first | cases hk | skip
    simp only [Tag.tree, Tree.app.injEq] at e
    rw [chars_inj hc e.2]
  | .string, g', h, h', e => by
    have hk := kind_eq h h' e
    cases g' <;> first | rfl | (simp only [Tag.kind] at hk; cases hk)
  | .buffer, g', h, h', e => by
    have hk := kind_eq h h' e
    cases g' <;> first | rfl | (simp only [Tag.kind] at hk; cases hk)
  | .dynamicBuffer, g', h, h', e => by
    have hk := kind_eq h h' e
    cases g' <;> first | rfl | (simp only [Tag.kind] at hk; cases hk)
  | .container g, g', h, h', e => by
    have hk := kind_eq h h' e
    cases g' <;> simp only [Tag.kind] at hk <;> first | cases hk | skip
    simp only [Tag.tree, Tree.app.injEq, Trees.cons.injEq, Tag.Named] at e h h'
    rw [tag_unique hc g _ h h' e.2.1]
  | .sequence gs, g', h, h', e => by
    have hk := kind_eq h h' e
    cases g' <;> simp only [Tag.kind] at hk <;> first | cases hk | skip
    simp only [Tag.tree, Tree.app.injEq, Tag.Named] at e h h'
    rw [tags_unique hc gs _ h h' e.2]
  | .map gs, g', h, h', e => by
    have hk := kind_eq h h' e
    cases g' <;> simp only [Tag.kind] at hk <;> first | cases hk | skip
    simp only [Tag.tree, Tree.app.injEq, Tag.Named] at e h h'
    rw [nodes_unique hc gs _ h h' e.2]
  | .variant gs, g', h, h', e => by
    have hk := kind_eq h h' e
    cases g' <;> simp only [Tag.kind] at hk <;> first | cases hk | skip
    simp only [Tag.tree, Tree.app.injEq, Tag.Named] at e h h'
    rw [tags_unique hc gs _ h h' e.2]
theorem tags_unique {chr : Byte → Text} (hc : Writes chr) : ∀ (gs gs' : Tags), gs.Named false →
    gs'.Named false → gs.trees chr = gs'.trees chr → gs = gs'
  | .nil, .nil, _, _, _ => rfl
  | .nil, .cons _ _ _, _, _, e => by simp [Tags.trees] at e
  | .cons _ _ _, .nil, _, _, e => by simp [Tags.trees] at e
  | .cons n g gs, .cons n' g' gs', h, h', e => by
    simp only [Tags.trees, Trees.cons.injEq, Tags.Named, true_implies] at e h h'
    rw [h.1, h'.1, tag_unique hc g g' h.2.1 h'.2.1 e.1, tags_unique hc gs gs' h.2.2 h'.2.2 e.2]
theorem nodes_unique {chr : Byte → Text} (hc : Writes chr) : ∀ (gs gs' : Tags), gs.Named true →
    gs'.Named true → gs.nodes chr = gs'.nodes chr → gs = gs'
  | .nil, .nil, _, _, _ => rfl
  | .nil, .cons _ _ _, _, _, e => by simp [Tags.nodes] at e
  | .cons _ _ _, .nil, _, _, e => by simp [Tags.nodes] at e
  | .cons n g gs, .cons n' g' gs', h, h', e => by
    simp only [Tags.nodes, Trees.cons.injEq, Tags.Named, Tree.app.injEq, true_and] at e h h'
    rw [chars_inj hc e.1.1, tag_unique hc g g' h.2.1 h'.2.1 e.1.2.1, nodes_unique hc gs gs' h.2.2 h'.2.2 e.2]
end

/-! ## The trees are well formed -/

theorem plain_ns (s : Text) (h : Plain s) : Plain (tagNs ++ s) := by
  refine ⟨by simp [h.1], fun c hc => ?_⟩
  rcases List.mem_append.mp hc with hc | hc
  · have : ∀ c ∈ tagNs, c ≠ lt ∧ c ≠ gt ∧ c ≠ comma := by decide
    exact this c hc
  · exact h.2 c hc

theorem chars_ok {chr : Byte → Text} (hc : Writes chr) : ∀ cs, (chars chr cs).Ok
  | [] => trivial
  | c :: cs => ⟨hc.2 c, chars_ok hc cs⟩

mutual
theorem tree_ok {chr : Byte → Text} (hc : Writes chr) : ∀ g : Tag, g.Named → (g.tree chr).Ok
  | .fund f, _ => by cases f <;> simp only [Tag.tree, Tree.Ok] <;> decide
  | .cls n, h => by simp only [Tag.Named] at h; simp only [Tag.tree, Tree.Ok]; exact h.1
  | .type n, h => by
    simp only [Tag.Named] at h; simp only [Tag.tree, Tree.Ok, Trees.Ok]
    exact ⟨plain_ns _ (by decide), h, trivial⟩
  | .const n, h => by
    simp only [Tag.Named] at h; simp only [Tag.tree, Tree.Ok, Trees.Ok]
    exact ⟨plain_ns _ (by decide), h, trivial⟩
  | .ctstr cs, _ => by
    simp only [Tag.tree, Tree.Ok]
    exact ⟨plain_ns _ (by decide), chars_ok hc cs⟩
  | .string, _ => by simp only [Tag.tree, Tree.Ok]; exact plain_ns _ (by decide)
  | .buffer, _ => by simp only [Tag.tree, Tree.Ok]; exact plain_ns _ (by decide)
  | .dynamicBuffer, _ => by simp only [Tag.tree, Tree.Ok]; exact plain_ns _ (by decide)
  | .container g, h => by
    simp only [Tag.Named] at h; simp only [Tag.tree, Tree.Ok, Trees.Ok]
    exact ⟨plain_ns _ (by decide), tree_ok hc g h, trivial⟩
  | .sequence gs, h => by
    simp only [Tag.Named] at h; simp only [Tag.tree, Tree.Ok]
    exact ⟨plain_ns _ (by decide), trees_ok hc gs false h⟩
  | .map gs, h => by
    simp only [Tag.Named] at h; simp only [Tag.tree, Tree.Ok]
    exact ⟨plain_ns _ (by decide), nodes_ok hc gs true h⟩
  | .variant gs, h => by
    simp only [Tag.Named] at h; simp only [Tag.tree, Tree.Ok]
    exact ⟨plain_ns _ (by decide), trees_ok hc gs false h⟩
theorem trees_ok {chr : Byte → Text} (hc : Writes chr) : ∀ (gs : Tags) (k : Bool), gs.Named k → (gs.trees chr).Ok
  | .nil, _, _ => trivial
  | .cons n g gs, k, h => by
    simp only [Tags.Named] at h; simp only [Tags.trees, Trees.Ok]
    exact ⟨tree_ok hc g h.2.1, trees_ok hc gs k h.2.2⟩
theorem nodes_ok {chr : Byte → Text} (hc : Writes chr) : ∀ (gs : Tags) (k : Bool), gs.Named k → (gs.nodes chr).Ok
  | .nil, _, _ => trivial
  | .cons n g gs, k, h => by
    simp only [Tags.Named] at h; simp only [Tags.nodes, Trees.Ok, Tree.Ok]
    exact ⟨⟨plain_ns _ (by decide), ⟨plain_ns _ (by decide), chars_ok hc n⟩, tree_ok hc g h.2.1, trivial⟩,
      nodes_ok hc gs k h.2.2⟩
end

/-- The text that is hashed determines the tags. -/
theorem text_unique {chr : Byte → Text} (hc : Writes chr) (f f' : List Byte) (g g' : Tag) (h : g.Named)
    (h' : g'.Named) (e : prettyFunction chr (.ctstr f) g = prettyFunction chr (.ctstr f') g') :
    f = f' ∧ g = g' := by
  unfold prettyFunction at e
  have e := List.append_cancel_left e
  obtain ⟨e1, e2⟩ := tree_unique _ _ _ _ (tree_ok hc (.ctstr f) trivial) (tree_ok hc (.ctstr f') trivial)
    (stop_comma _) (stop_comma _) e
  simp only [List.cons.injEq, true_and] at e2
  obtain ⟨e3, -⟩ := tree_unique _ _ _ _ (tree_ok hc g h) (tree_ok hc g' h')
    stop_end stop_end e2
  refine ⟨?_, tag_unique hc g g' h h' e3⟩
  have := tag_unique hc (.ctstr f) (.ctstr f') trivial trivial e1
  cases this; rfl

/-! ## Tags of types -/

mutual
theorem tagOf_named : ∀ (t : CppTy) (g : Tag), Spec.Named t → tagOf t = some g → g.Named
  | .fund f, g, h, e => by simp only [tagOf, Option.some.injEq] at e; subst e; trivial
  | .cls n, g, h, e => by
    simp only [tagOf, Option.some.injEq] at e; subst e; simpa only [Spec.Named, Tag.Named] using h
  | .type n, g, h, e => by
    simp only [tagOf, Option.some.injEq] at e; subst e; simpa only [Spec.Named, Tag.Named] using h
  | .const n, g, h, e => by
    simp only [tagOf, Option.some.injEq] at e; subst e; simpa only [Spec.Named, Tag.Named] using h
  | .ctstr n, g, h, e => by simp only [tagOf, Option.some.injEq] at e; subst e; trivial
  | .enum, g, h, e => by simp only [tagOf] at e; cases e
  | .str, g, h, e => by simp only [tagOf, Option.some.injEq] at e; subst e; trivial
  | .buf, g, h, e => by simp only [tagOf, Option.some.injEq] at e; subst e; trivial
  | .fixed n, g, h, e => by simp only [tagOf, Option.some.injEq] at e; subst e; trivial
  | .cont t, g, h, e => by
    simp only [tagOf] at e
    obtain ⟨g0, h0, rfl⟩ := Option.map_eq_some_iff.mp e
    simp only [Spec.Named] at h
    simp only [Tag.Named]; exact tagOf_named t g0 h h0
  | .seq ts, g, h, e => by
    simp only [tagOf] at e
    obtain ⟨g0, h0, rfl⟩ := Option.map_eq_some_iff.mp e
    simp only [Spec.Named] at h
    simp only [Tag.Named]; exact tagsOf_named ts false g0 h h0
  | .map ts, g, h, e => by
    simp only [tagOf] at e
    obtain ⟨g0, h0, rfl⟩ := Option.map_eq_some_iff.mp e
    simp only [Spec.Named] at h
    simp only [Tag.Named]; exact tagsOf_named ts true g0 h h0
  | .entity ts, g, h, e => by simp only [tagOf] at e; cases e
  | .var t ts, g, h, e => by
    simp only [tagOf] at e
    simp only [Spec.Named] at h
    split at e
    · rename_i g0 gs0 h0 h1
      cases e
      simp only [Tag.Named, Tags.Named]
      exact ⟨fun _ => trivial, tagOf_named t g0 h.1 h0, tagsOf_named ts false gs0 h.2 h1⟩
    · cases e
theorem tagsOf_named : ∀ (ts : CppTys) (k : Bool) (gs : Tags), NamedAll ts → tagsOf k ts = some gs → gs.Named k
  | .nil, k, gs, h, e => by simp only [tagsOf, Option.some.injEq] at e; subst e; trivial
  | .cons n t ts, k, gs, h, e => by
    simp only [tagsOf] at e
    simp only [NamedAll] at h
    split at e
    · rename_i g0 gs0 h0 h1
      cases e
      simp only [Tags.Named]
      exact ⟨fun hk => by rw [hk]; rfl, tagOf_named t g0 h.1 h0, tagsOf_named ts k gs0 h.2 h1⟩
    · cases e
end

mutual
/-- How many buffers of fixed size a tag has. -/
def Tag.fixed : Tag → Nat
  | .buffer => 1
  | .container g => g.fixed
  | .sequence gs => gs.fixed
  | .map gs => gs.fixed
  | .variant gs => gs.fixed
  | _ => 0
def Tags.fixed : Tags → Nat
  | .nil => 0
  | .cons _ g gs => g.fixed + gs.fixed
end

mutual
theorem sizes_length : ∀ (t : CppTy) (g : Tag), tagOf t = some g → (sizes t).length = g.fixed
  | .fund f, g, e => by simp only [tagOf, Option.some.injEq] at e; subst e; rfl
  | .cls n, g, e => by simp only [tagOf, Option.some.injEq] at e; subst e; rfl
  | .type n, g, e => by simp only [tagOf, Option.some.injEq] at e; subst e; rfl
  | .const n, g, e => by simp only [tagOf, Option.some.injEq] at e; subst e; rfl
  | .ctstr n, g, e => by simp only [tagOf, Option.some.injEq] at e; subst e; rfl
  | .enum, g, e => by simp only [tagOf] at e; cases e
  | .str, g, e => by simp only [tagOf, Option.some.injEq] at e; subst e; rfl
  | .buf, g, e => by simp only [tagOf, Option.some.injEq] at e; subst e; rfl
  | .fixed n, g, e => by simp only [tagOf, Option.some.injEq] at e; subst e; rfl
  | .cont t, g, e => by
    simp only [tagOf] at e
    obtain ⟨g0, h0, rfl⟩ := Option.map_eq_some_iff.mp e
    simp only [sizes, Tag.fixed]; exact sizes_length t g0 h0
  | .seq ts, g, e => by
    simp only [tagOf] at e
    obtain ⟨g0, h0, rfl⟩ := Option.map_eq_some_iff.mp e
    simp only [sizes, Tag.fixed]; exact sizesAll_length ts false g0 h0
  | .map ts, g, e => by
    simp only [tagOf] at e
    obtain ⟨g0, h0, rfl⟩ := Option.map_eq_some_iff.mp e
    simp only [sizes, Tag.fixed]; exact sizesAll_length ts true g0 h0
  | .entity ts, g, e => by simp only [tagOf] at e; cases e
  | .var t ts, g, e => by
    simp only [tagOf] at e
    split at e
    · rename_i g0 gs0 h0 h1
      cases e
      simp only [sizes, Tag.fixed, Tags.fixed, List.length_append]
      rw [sizes_length t g0 h0, sizesAll_length ts false gs0 h1]
    · cases e
theorem sizesAll_length : ∀ (ts : CppTys) (k : Bool) (gs : Tags), tagsOf k ts = some gs →
    (sizesAll ts).length = gs.fixed
  | .nil, k, gs, e => by simp only [tagsOf, Option.some.injEq] at e; subst e; rfl
  | .cons n t ts, k, gs, e => by
    simp only [tagsOf] at e
    split at e
    · rename_i g0 gs0 h0 h1
      cases e
      simp only [sizesAll, Tags.fixed, List.length_append]
      rw [sizes_length t g0 h0, sizesAll_length ts k gs0 h1]
    · cases e
end

mutual
/-- The binder's view, from a tag and the sizes of the buffers that are left. -/
def Tag.bind : Tag → List Nat → Option Ty
  | .fund .int, _ => some .int
  | .fund .uint, _ => some .uint
  | .fund _, _ => none
  | .cls _, _ => some .empty
  | .type _, _ => some .empty
  | .const _, _ => some .empty
  | .ctstr _, _ => some .empty
  | .string, _ => some .str
  | .dynamicBuffer, _ => some .buf
  | .buffer, ns => some (.fixed (ns.headD 0))
  | .container g, ns => (g.bind ns).map .cont
  | .sequence .nil, _ => some .empty
  | .sequence (.cons n g gs), ns => ((Tags.cons n g gs).bind ns).map .seq
  | .map gs, ns => (gs.bind ns).map .record
  | .variant .nil, _ => none
  | .variant (.cons _ g gs), ns =>
    match g.bind (ns.take g.fixed), gs.bind (ns.drop g.fixed) with
    | some b, some bs => some (.var b bs)
    | _, _ => none
def Tags.bind : Tags → List Nat → Option Tys
  | .nil, _ => some .nil
  | .cons n g gs, ns =>
    match g.bind (ns.take g.fixed), gs.bind (ns.drop g.fixed) with
    | some b, some bs => some (.cons n b bs)
    | _, _ => none
end

mutual
theorem bind_tag : ∀ (t : CppTy) (g : Tag), tagOf t = some g → bindOf t = g.bind (sizes t)
  | .fund f, g, e => by
    simp only [tagOf, Option.some.injEq] at e; subst e; cases f <;> simp only [bindOf, Tag.bind]
  | .cls n, g, e => by simp only [tagOf, Option.some.injEq] at e; subst e; simp only [bindOf, Tag.bind]
  | .type n, g, e => by simp only [tagOf, Option.some.injEq] at e; subst e; simp only [bindOf, Tag.bind]
  | .const n, g, e => by simp only [tagOf, Option.some.injEq] at e; subst e; simp only [bindOf, Tag.bind]
  | .ctstr n, g, e => by simp only [tagOf, Option.some.injEq] at e; subst e; simp only [bindOf, Tag.bind]
  | .enum, g, e => by simp only [tagOf] at e; cases e
  | .str, g, e => by simp only [tagOf, Option.some.injEq] at e; subst e; simp only [bindOf, Tag.bind]
  | .buf, g, e => by simp only [tagOf, Option.some.injEq] at e; subst e; simp only [bindOf, Tag.bind]
  | .fixed n, g, e => by
    simp only [tagOf, Option.some.injEq] at e; subst e; simp only [bindOf, Tag.bind, sizes, List.headD_cons]
  | .cont t, g, e => by
    simp only [tagOf] at e
    obtain ⟨g0, h0, rfl⟩ := Option.map_eq_some_iff.mp e
    simp only [bindOf, Tag.bind, sizes]; rw [bind_tag t g0 h0]
  | .seq .nil, g, e => by
    simp only [tagOf, tagsOf, Option.map_some, Option.some.injEq] at e; subst e; simp only [bindOf, Tag.bind]
  | .seq (.cons n t ts), g, e => by
    simp only [tagOf] at e
    obtain ⟨g0, h0, rfl⟩ := Option.map_eq_some_iff.mp e
    have := bindAll_tags (.cons n t ts) false g0 h0
    rw [bindOf, this]
    cases g0 with
    | nil => simp only [tagsOf] at h0; split at h0 <;> cases h0
    | cons n g gs => simp only [Tag.bind, sizes]
  | .map ts, g, e => by
    simp only [tagOf] at e
    obtain ⟨g0, h0, rfl⟩ := Option.map_eq_some_iff.mp e
    simp only [bindOf, Tag.bind, sizes]; rw [bindAll_tags ts true g0 h0]
  | .entity ts, g, e => by simp only [tagOf] at e; cases e
  | .var t ts, g, e => by
    simp only [tagOf] at e
    split at e
    · rename_i g0 gs0 h0 h1
      cases e
      have hl := sizes_length t g0 h0
      simp only [bindOf, Tag.bind, sizes]
      rw [bind_tag t g0 h0, bindAll_tags ts false gs0 h1, ← hl, List.take_left, List.drop_left]
      split <;> simp_all
    · cases e
theorem bindAll_tags : ∀ (ts : CppTys) (k : Bool) (gs : Tags), tagsOf k ts = some gs →
    bindAll k ts = gs.bind (sizesAll ts)
  | .nil, k, gs, e => by simp only [tagsOf, Option.some.injEq] at e; subst e; simp only [bindAll, Tags.bind]
  | .cons n t ts, k, gs, e => by
    simp only [tagsOf] at e
    split at e
    · rename_i g0 gs0 h0 h1
      cases e
      have hl := sizes_length t g0 h0
      simp only [bindAll, Tags.bind, sizesAll]
      rw [bind_tag t g0 h0, bindAll_tags ts k gs0 h1, ← hl, List.take_left, List.drop_left]
      split <;> simp_all
    · cases e
end

mutual
theorem tagOf_some : ∀ t : CppTy, (∃ g, tagOf t = some g) ↔ Signable t
  | .fund _ => by simp [tagOf, Signable]
  | .cls _ => by simp [tagOf, Signable]
  | .type _ => by simp [tagOf, Signable]
  | .const _ => by simp [tagOf, Signable]
  | .ctstr _ => by simp [tagOf, Signable]
  | .enum => by simp [tagOf, Signable]
  | .str => by simp [tagOf, Signable]
  | .buf => by simp [tagOf, Signable]
  | .fixed _ => by simp [tagOf, Signable]
  | .cont t => by
    simp only [tagOf, Signable]; rw [← tagOf_some t]; cases tagOf t <;> simp
  | .seq ts => by
    simp only [tagOf, Signable]; rw [← tagsOf_some ts false]; cases tagsOf false ts <;> simp
  | .map ts => by
    simp only [tagOf, Signable]; rw [← tagsOf_some ts true]; cases tagsOf true ts <;> simp
  | .entity _ => by simp [tagOf, Signable]
  | .var t ts => by
    simp only [tagOf, Signable]; rw [← tagOf_some t, ← tagsOf_some ts false]
    cases tagOf t <;> cases tagsOf false ts <;> simp
theorem tagsOf_some : ∀ (ts : CppTys) (k : Bool), (∃ gs, tagsOf k ts = some gs) ↔ SignableAll ts
  | .nil, _ => by simp [tagsOf, SignableAll]
  | .cons n t ts, k => by
    simp only [tagsOf, SignableAll]; rw [← tagOf_some t, ← tagsOf_some ts k]
    cases tagOf t <;> cases tagsOf k ts <;> simp
end

end Nbdl.ApiSig
