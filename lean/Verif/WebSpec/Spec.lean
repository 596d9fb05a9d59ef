import Verif.Dom.Spec
import Verif.UiPath.Spec
import Verif.WebSpec.Model
/-!
# What a page stands for

Every path stands for the value it leads to from the store (`UiPath.Spec.path`).
-/
namespace Nbdl.WebSpec.Spec
open WebSpec
open UiPath (World Params Path)
variable {V Ty : Type} [DecidableEq Ty]

/-- The alternative is for this value. -/
def suits (w : World V Ty) (v : V) : Pick Ty → Bool
  | .type none => true
  | .type (some t) => decide (w.type v = t)
  | .cond i => w.pred i v

/-- The first alternative for the value. -/
def choose (w : World V Ty) (v : V) : List (Pick Ty) → Option Nat
  | [] => none
  | x :: xs => if suits w v x then some 0 else (choose w v xs).map (· + 1)

mutual
def meansText (k : View V Ty) : TextSpec V Ty → Dom.TextSpec V
  | .const v => .const v
  | .path p => .path fun s => (UiPath.Spec.path k.toWorld s p).map k.label
  | .concat ts => .concat (meansTexts k ts)
def meansTexts (k : View V Ty) : List (TextSpec V Ty) → List (Dom.TextSpec V)
  | [] => []
  | t :: ts => meansText k t :: meansTexts k ts
end

mutual
/-- The page with the values its paths mean. -/
def means (k : View V Ty) : Web V Ty → Dom.Item V
  | .elem tag items => .elem tag (meansAll k items)
  | .text t => .text (meansText k t)
  | .attr n v => .attr n v
  | .attrDyn n ps => .attrDyn n fun s => k.decode (UiPath.Spec.textAll k.toWorld k.view s ps)
  | .attrIf n p i => .attrIf n fun s => (UiPath.Spec.path k.toWorld s p).map fun v => k.pred i v
  | .classIf n p i => .classIf n fun s => (UiPath.Spec.path k.toWorld s p).map fun v => k.pred i v
  | .classWhen n p t => .classWhen n fun s => decide (∃ v, UiPath.Spec.path k.toWorld s p = some v ∧ k.type v = t)
  | .branch p ks bs => .branch (fun s => (UiPath.Spec.path k.toWorld s p).bind fun v => choose k.toWorld v ks) (meansAll k bs)
  | .forEach p key body =>
    .forEach (fun s => (UiPath.Spec.path k.toWorld s p).map fun c => k.range key c s) (means k body)
  | .html v => .html v
  | .noop => .noop
def meansAll (k : View V Ty) : List (Web V Ty) → List (Dom.Item V)
  | [] => []
  | x :: xs => means k x :: meansAll k xs
end

mutual
def FineText (k : View V Ty) (s : V) : TextSpec V Ty → Prop
  | .const _ => True
  | .path p => UiPath.Spec.finePath k.toWorld s p
  | .concat ts => FineTexts k s ts
def FineTexts (k : View V Ty) (s : V) : List (TextSpec V Ty) → Prop
  | [] => True
  | t :: ts => FineText k s t ∧ FineTexts k s ts
end

mutual
/-- The paths and parameters of the page are ones for which the lookup is right (`UiPath.Spec.finePath`), in the store and
in the stores of the elements of its containers. -/
def Fine (k : View V Ty) (s : V) : Web V Ty → Prop
  | .elem _ items => FineAll k s items
  | .text t => FineText k s t
  | .attrDyn _ ps => UiPath.Spec.fineAll k.toWorld s ps ∧ UiPath.Spec.plainAll ps
  | .attrIf _ p _ | .classIf _ p _ | .classWhen _ p _ => UiPath.Spec.finePath k.toWorld s p
  | .branch p _ bs => UiPath.Spec.finePath k.toWorld s p ∧ FineAll k s bs
  | .forEach p key body => UiPath.Spec.finePath k.toWorld s p ∧
      ∀ c, UiPath.Spec.path k.toWorld s p = some c → ∀ s' ∈ k.range key c s, Fine k s' body
  | .attr .. | .html _ | .noop => True
def FineAll (k : View V Ty) (s : V) : List (Web V Ty) → Prop
  | [] => True
  | x :: xs => Fine k s x ∧ FineAll k s xs
end

end Nbdl.WebSpec.Spec
