/-!
# Elements of tuples: `nbdl::get` and `nbdl::bind_sequence`

Models `/repo/include/nbdl/ext/std/tuple_like.hpp` (16-42), `/repo/include/nbdl/get.hpp` (26-93),
`/repo/include/nbdl/concept/State.hpp` (14-25), `/repo/include/nbdl/bind_sequence.hpp` (27-37, 72-88),
`/repo/include/nbdl/detail/filter_empties.hpp` (22-47) and the keys of `/repo/include/nbdl/tags.hpp` (40-53).

Which specialization of `get_impl` and `bind_sequence_impl` is used depends on the Hana tag of an object, and that of
`std::pair`, `std::array` and `std::tuple` depends on whether Hana's adapters for them have been included
(`bind_sequence.hpp:21`, `uid.hpp:16` and others, `binder/js.hpp:24`).  The headers are therefore a parameter.

Simplifications: values are read and assigned, but not moved; what reference wrappers refer to is kept inside of them, so
that two of them never refer to the same object; constness is left out; a program that does not compile is `none`.
-/
namespace Nbdl.TupleLike

/-- Types of objects, as far as `get` and `bind_sequence` tell them apart. -/
inductive Ty where
  /-- a class or a number without adapters, by number: `int`, `std::string`, `some_tag`, … -/
  | leaf (n : Nat)
  /-- `nbdl::index_t<i>`, tags.hpp:43 -/
  | indexT (i : Nat)
  /-- `nbdl::type_t<T>`, tags.hpp:51 -/
  | typeT (t : Ty)
  /-- `hana::first_t`, the key of get.hpp:85 -/
  | firstT
  /-- `hana::second_t`, the key of get.hpp:90 -/
  | secondT
  /-- `std::tuple` -/
  | tuple (ts : List Ty)
  /-- `std::pair` -/
  | pair (a b : Ty)
  /-- `std::array` -/
  | array (t : Ty) (n : Nat)
  /-- `hana::tuple`: a Hana Sequence -/
  | seq (ts : List Ty)
  /-- `hana::pair`: a Hana Product -/
  | prod (a b : Ty)
  /-- `std::reference_wrapper` -/
  | ref (t : Ty)
deriving Repr, Inhabited

mutual
/-- Equality of types. -/
def Ty.same : Ty → Ty → Bool
  | .leaf n, .leaf m => n == m
  | .indexT i, .indexT j => i == j
  | .typeT a, .typeT b => Ty.same a b
  | .firstT, .firstT => true
  | .secondT, .secondT => true
  | .tuple as, .tuple bs => Ty.sames as bs
  | .pair a b, .pair c d => Ty.same a c && Ty.same b d
  | .array a n, .array b m => Ty.same a b && n == m
  | .seq as, .seq bs => Ty.sames as bs
  | .prod a b, .prod c d => Ty.same a c && Ty.same b d
  | .ref a, .ref b => Ty.same a b
  | _, _ => false
/-- Equality of lists of types. -/
def Ty.sames : List Ty → List Ty → Bool
  | [], [] => true
  | a :: as, b :: bs => Ty.same a b && Ty.sames as bs
  | _, _ => false
end

/-- Objects.  A leaf is an object of a type without adapters, with a number that stands for its value. -/
inductive Val where
  | leaf (t : Nat) (n : Nat)
  /-- an object of the class of a key, as `nbdl::index<0>` -/
  | indexV (i : Nat)
  | typeV (t : Ty)
  | firstV
  | secondV
  | tuple (vs : List Val)
  | pair (a b : Val)
  /-- the type of the elements, and the elements -/
  | array (t : Ty) (vs : List Val)
  | seq (vs : List Val)
  | prod (a b : Val)
  /-- a reference wrapper, with what it refers to -/
  | ref (v : Val)
deriving Repr, Inhabited

/-- The type of an object. -/
def Val.ty : Val → Ty
  | .leaf t _ => .leaf t
  | .indexV i => .indexT i
  | .typeV t => .typeT t
  | .firstV => .firstT
  | .secondV => .secondT
  | .tuple vs => .tuple (vs.map Val.ty)
  | .pair a b => .pair a.ty b.ty
  | .array t vs => .array t vs.length
  | .seq vs => .seq (vs.map Val.ty)
  | .prod a b => .prod a.ty b.ty
  | .ref v => .ref v.ty

/-- Which of Hana's adapters have been included. -/
structure Headers where
  /-- `boost/hana/ext/std/tuple.hpp` -/
  tuple : Bool
  /-- `boost/hana/ext/std/pair.hpp` -/
  pair : Bool
  /-- `boost/hana/ext/std/array.hpp` -/
  array : Bool
deriving Repr, DecidableEq

/-- The specialization of `get_impl` for a type, by its Hana tag. -/
inductive GetImpl where
  /-- the default, concept/State.hpp:14-22 -/
  | default
  /-- ext/std/tuple_like.hpp:22-33 -/
  | tupleLike
  /-- get.hpp:55-73, of a Hana Sequence -/
  | sequence
  /-- get.hpp:55-73, of something Searchable that is no Sequence -/
  | searchable
  /-- get.hpp:75-93 -/
  | product
  /-- get.hpp:42-53 -/
  | wrapper
deriving Repr, DecidableEq

/-- `get_impl<hana::tag_of_t<T>>`: the tag of an adapted type is Hana's, which has no `std::tuple_size`; a reference wrapper
has its own specialization if it refers to a State (get.hpp:42).  `std::array` is an Iterable but no Sequence in Hana. -/
def getImpl (h : Headers) : Ty → GetImpl
  | .tuple _ => if h.tuple then .sequence else .tupleLike
  | .pair _ _ => if h.pair then .product else .tupleLike
  | .array _ _ => if h.array then .searchable else .tupleLike
  | .seq _ => .sequence
  | .prod _ _ => .product
  | .ref t => if getImpl h t = .default then .default else .wrapper
  | _ => .default

/-- What a reference wrapper refers to. -/
def unwrap : Val → Val
  | .ref w => w
  | v => v

/-- `nbdl::get(s)`, get.hpp:34-40: the implementation for tuple-likes has no such function (tuple_like.hpp:22-33), that for
reference wrappers gives what they refer to (get.hpp:44-47), the others give the object (State.hpp:18-21, get.hpp:57-60,
79-82). -/
def open1 (h : Headers) (v : Val) : Option Val :=
  match getImpl h v.ty with
  | .tupleLike => none
  | .wrapper => some (unwrap v)
  | _ => some v

/-- The elements of a tuple, a pair or an array. -/
def elements : Val → List Val
  | .tuple vs => vs
  | .pair a b => [a, b]
  | .array _ vs => vs
  | .seq vs => vs
  | .prod a b => [a, b]
  | _ => []

/-- The element, if there is exactly one. -/
def single : List Val → Option Val
  | [e] => some e
  | _ => none

/-- `std::get<U>(s)`: the element of that type, if there is exactly one; `std::array` has no such function. -/
def stdGetType (v : Val) (t : Ty) : Option Val :=
  match v with
  | .array _ _ => none
  | v => single ((elements v).filter (fun e => e.ty.same t))

/-- `Impl::apply(s, k)`: tuple_like.hpp:24-32 for tuple-likes, get.hpp:62-72 for Sequences (the key says nothing but its
type, and the first element of that type is taken), get.hpp:84-92 for Products, get.hpp:49-52 for reference wrappers.  An
array that Hana knows is searched for an element equal to the key, which is not known at compile time. -/
def applyKey (h : Headers) : Val → Val → Option Val
  | .ref w, k => if getImpl h (.ref w.ty) = .wrapper then (applyKey h w k).bind (open1 h) else none
  | v, k => match getImpl h v.ty with
    | .tupleLike => match k with
      | .indexV i => (elements v)[i]?
      | .typeV t => stdGetType v t
      | _ => none
    | .sequence => (elements v).find? (fun e => e.ty.same k.ty)
    | .product => match k with
      | .firstV => (elements v)[0]?
      | .secondV => (elements v)[1]?
      | _ => none
    | _ => none

/-- `nbdl::get(s, k)`, get.hpp:26-32: what was found is opened. -/
def get (h : Headers) (v k : Val) : Option Val := (applyKey h v k).bind (open1 h)

/-- `nbdl::get_path(s, path)`, `/repo/include/nbdl/get_path.hpp` (23-34): one key after the other. -/
def getPath (h : Headers) (v : Val) : List Val → Option Val
  | [] => some v
  | k :: ks => (get h v k).bind fun w => getPath h w ks

/-- Whether there is a `bind_sequence_impl`: for tuple-likes (tuple_like.hpp:35-42), Sequences and Products
(bind_sequence.hpp:72-88); not for an array that Hana knows, nor for reference wrappers. -/
def bindable (h : Headers) : Ty → Bool
  | .tuple _ => true
  | .pair _ _ => true
  | .array _ _ => !h.array
  | .seq _ => true
  | .prod _ _ => true
  | _ => false

/-- `std::ref(x)` and then `ref.get()`, filter_empties.hpp:22-29, 39 and 43: `std::ref` of a reference wrapper is that wrapper,
so that what it refers to is handed on. -/
def unref (v : Val) : Val := unwrap v

/-- What is assigned to an argument changes the object it refers to. -/
def assignTo : Val → Val → Val
  | .ref _, x => .ref x
  | _, x => x

/-- The arguments of the function: those whose type is not empty, filter_empties.hpp:35-45.  Which types are empty is given by
`emp`, as it depends on the standard library for tuples. -/
def args (emp : Ty → Bool) (vs : List Val) : List Val := (vs.map unref).filter (fun v => !emp v.ty)

/-- The elements after the function has assigned to its arguments. -/
def assigned (emp : Ty → Bool) : List Val → List Val → List Val
  | [], _ => []
  | v :: vs, [] => v :: assigned emp vs []
  | v :: vs, x :: new =>
    if emp (unref v).ty then v :: assigned emp vs (x :: new) else assignTo v x :: assigned emp vs new

/-- The object with other elements. -/
def withElements : Val → List Val → Val
  | .tuple _, vs => .tuple vs
  | .pair _ _, [a, b] => .pair a b
  | .array t _, vs => .array t vs
  | .seq _, vs => .seq vs
  | .prod _ _, [a, b] => .prod a b
  | v, _ => v

/-- `nbdl::bind_sequence(s, f)`, bind_sequence.hpp:27-37.  The function is given by what it assigns to its arguments and what it
returns.  It is called once (tuple_like.hpp:37-41, bind_sequence.hpp:80-87). -/
def bindSequence {R : Type} (h : Headers) (emp : Ty → Bool) (v : Val) (f : List Val → List Val × R) : Option (Val × R) :=
  if bindable h v.ty then
    match f (args emp (elements v)) with
    | (new, r) => some (withElements v (assigned emp (elements v) new), r)
  else none

end Nbdl.TupleLike
