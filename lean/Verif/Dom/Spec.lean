import Verif.Dom.Model
/-!
# The tree a specification stands for
-/
namespace Nbdl.Dom.Spec
open Dom

inductive Tree where
  | text (v : Text)
  | raw (v : Text)
  | elem (tag : Text) (attrs : Text → Option Text) (classes : Text → Bool) (children : List Tree)

variable {S : Type}

mutual
/-- The text nodes. -/
def textNodes (s : S) : TextSpec S → List Tree
  | .const v => [.text v]
  | .path f => [.text ((f s).getD [])]
  | .concat ts => textsNodes s ts
def textsNodes (s : S) : List (TextSpec S) → List Tree
  | [] => []
  | t :: ts => textNodes s t ++ textsNodes s ts
end

/-- The value an item gives to an attribute. -/
def attrBy (s : S) (n : Text) : Item S → Option Text
  | .attr m v => if n = m then some v else none
  | .attrDyn m f => if n = m then some (f s) else none
  | .attrIf m f => if n = m ∧ f s = some true then some [] else none
  | _ => none

/-- The value of an attribute: the last item counts. -/
def attrOf (s : S) (n : Text) : List (Item S) → Option Text
  | [] => none
  | x :: xs => (attrOf s n xs).or (attrBy s n x)

def classBy (s : S) (n : Text) : Item S → Bool
  | .classIf m f => n == m && f s == some true
  | .classWhen m f => n == m && f s
  | _ => false

def classOf (s : S) (n : Text) (items : List (Item S)) : Bool := items.any (classBy s n)

mutual
/-- The nodes an item stands for. -/
def trees (s : S) : Item S → List Tree
  | .elem tag items => [.elem tag (fun n => attrOf s n items) (fun n => classOf s n items) (treesAll s items)]
  | .text t => textNodes s t
  | .branch f bs => treesAt s bs (f s)
  | .forEach f body => ((f s).getD []).flatMap fun s' => trees s' body
  | .html v => [.raw v]
  | _ => []
def treesAll (s : S) : List (Item S) → List Tree
  | [] => []
  | x :: xs => trees s x ++ treesAll s xs
/-- The nodes of the chosen branch. -/
def treesAt (s : S) : List (Item S) → Option Nat → List Tree
  | _, none => []
  | [], some _ => []
  | x :: _, some 0 => trees s x
  | _ :: xs, some (i + 1) => treesAt s xs (some i)
end

mutual
/-- In the document, the node is this tree. -/
def Shows (h : Dom) : Tree → Nat → Prop
  | .text v, i => (h.node i).kind = .text v
  | .raw v, i => (h.node i).kind = .raw v
  | .elem tag attrs classes ts, i => (h.node i).kind = .elem tag ∧ (h.node i).attrs = attrs ∧
      (h.node i).classes = classes ∧ ShowsAll h ts (h.node i).children
/-- In the document, the nodes are these trees. -/
def ShowsAll (h : Dom) : List Tree → List Nat → Prop
  | [], is => is = []
  | t :: ts, is => ∃ i is', is = i :: is' ∧ Shows h t i ∧ ShowsAll h ts is'
end

/-! ## The specifications that work -/

/-- Items that concern only the element they are in. -/
def IsAttr : Item S → Prop
  | .attr .. | .attrDyn .. | .attrIf .. | .classIf .. | .classWhen .. | .noop => True
  | _ => False

/-- Items that take over the whole element. -/
def Filler : Item S → Prop
  | .forEach .. | .html _ => True
  | _ => False

/-- Items that are exactly one node, always the same one. -/
def OneNode : Item S → Prop
  | .elem .. => True
  | .text (.const _) | .text (.path _) => True
  | _ => False

def attrNames : List (Item S) → List Text
  | [] => []
  | .attr n _ :: xs | .attrDyn n _ :: xs | .attrIf n _ :: xs => n :: attrNames xs
  | _ :: xs => attrNames xs

def classNames : List (Item S) → List Text
  | [] => []
  | .classIf n _ :: xs | .classWhen n _ :: xs => n :: classNames xs
  | _ :: xs => classNames xs

mutual
/-- In every element, an attribute is given only once, and a loop or a piece of HTML has no siblings; the branches
of a match are single nodes; the body of a loop is not an attribute and not a loop itself. -/
def Shape : Item S → Prop
  | .elem _ items => ShapeAll items ∧ (attrNames items).Nodup ∧ (classNames items).Nodup ∧
      items.Pairwise fun x y => (Filler x → IsAttr y) ∧ (Filler y → IsAttr x)
  | .branch _ bs => ShapeAll bs ∧ ∀ b ∈ bs, OneNode b
  | .forEach _ body => Shape body ∧ ¬ IsAttr body ∧ ¬ Filler body
  | _ => True
def ShapeAll : List (Item S) → Prop
  | [] => True
  | x :: xs => Shape x ∧ ShapeAll xs
end

mutual
/-- Every match, shown or not, has a branch. -/
def InRange (s : S) : Item S → Prop
  | .elem _ items => InRangeAll s items
  | .branch f bs => (∃ i, f s = some i ∧ i < bs.length) ∧ InRangeAll s bs
  | .forEach f body => ∀ s' ∈ (f s).getD [], InRange s' body
  | _ => True
def InRangeAll (s : S) : List (Item S) → Prop
  | [] => True
  | x :: xs => InRange s x ∧ InRangeAll s xs
end

mutual
def MatchedText (s : S) : TextSpec S → Prop
  | .const _ => True
  | .path f => f s ≠ none
  | .concat ts => MatchedTexts s ts
def MatchedTexts (s : S) : List (TextSpec S) → Prop
  | [] => True
  | t :: ts => MatchedText s t ∧ MatchedTexts s ts
end

mutual
/-- Every path that is shown matches. -/
def Matched (s : S) : Item S → Prop
  | .elem _ items => MatchedAll s items
  | .text t => MatchedText s t
  | .attrIf _ f => f s ≠ none
  | .classIf _ f => f s ≠ none
  | .branch f bs => MatchedAt s bs (f s)
  | _ => True
def MatchedAll (s : S) : List (Item S) → Prop
  | [] => True
  | x :: xs => Matched s x ∧ MatchedAll s xs
def MatchedAt (s : S) : List (Item S) → Option Nat → Prop
  | _, none => True
  | [], some _ => True
  | x :: _, some 0 => Matched s x
  | _ :: xs, some (i + 1) => MatchedAt s xs (some i)
end

/-! ## What remains of earlier states -/

/-- The last value that a path led to, in a history of states with the present one first. -/
def lastOf {α : Type} (o : S × List S) (f : S → Option α) : Option α := (o.1 :: o.2).findSome? f

mutual
/-- The specification with paths that remember: in texts a path gives the last value it led to. -/
def rememberText : TextSpec S → TextSpec (S × List S)
  | .const v => .const v
  | .path f => .path fun o => lastOf o f
  | .concat ts => .concat (rememberTexts ts)
def rememberTexts : List (TextSpec S) → List (TextSpec (S × List S))
  | [] => []
  | t :: ts => rememberText t :: rememberTexts ts
end

mutual
/-- The specification with paths that remember: the paths of texts and of attributes and classes that are there or
not give the last value they led to; the elements of a loop have no past. -/
def remember : Item S → Item (S × List S)
  | .elem tag items => .elem tag (rememberAll items)
  | .text t => .text (rememberText t)
  | .attr n v => .attr n v
  | .attrDyn n f => .attrDyn n fun o => f o.1
  | .attrIf n f => .attrIf n fun o => lastOf o f
  | .classIf n f => .classIf n fun o => lastOf o f
  | .classWhen n f => .classWhen n fun o => f o.1
  | .branch f bs => .branch (fun o => f o.1) (rememberAll bs)
  | .forEach f body => .forEach (fun o => (f o.1).map fun l => l.map fun s => (s, [])) (remember body)
  | .html v => .html v
  | .noop => .noop
def rememberAll : List (Item S) → List (Item (S × List S))
  | [] => []
  | x :: xs => remember x :: rememberAll xs
end

mutual
/-- The last values of the paths are the present ones. -/
def CurrentText (o : S × List S) : TextSpec S → Prop
  | .const _ => True
  | .path f => (lastOf o f).getD [] = (f o.1).getD []
  | .concat ts => CurrentTexts o ts
def CurrentTexts (o : S × List S) : List (TextSpec S) → Prop
  | [] => True
  | t :: ts => CurrentText o t ∧ CurrentTexts o ts
end

mutual
/-- For every path that is shown, the last value is the present one: it leads somewhere, or what it led to last is
what is shown for nothing. -/
def Current (o : S × List S) : Item S → Prop
  | .elem _ items => CurrentAll o items
  | .text t => CurrentText o t
  | .attrIf _ f => lastOf o f = some true ↔ f o.1 = some true
  | .classIf _ f => lastOf o f = some true ↔ f o.1 = some true
  | .branch f bs => CurrentAt o bs (f o.1)
  | _ => True
def CurrentAll (o : S × List S) : List (Item S) → Prop
  | [] => True
  | x :: xs => Current o x ∧ CurrentAll o xs
def CurrentAt (o : S × List S) : List (Item S) → Option Nat → Prop
  | _, none => True
  | [], some _ => True
  | x :: _, some 0 => Current o x
  | _ :: xs, some (i + 1) => CurrentAt o xs (some i)
end

end Nbdl.Dom.Spec
