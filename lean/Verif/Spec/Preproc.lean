import Verif.Model.Preproc
/-!
# Specification of conditional compilation

A well-formed file is a tree of text lines, definitions and conditionals.  The
meaning of a conditional is "the first branch whose condition holds".  This file
uses only the vocabulary of the directives (`Dir`, `Defs`) from the model, none of
its functions on stacks.
-/
namespace Ccpp.Preproc.Spec
open Ccpp.Preproc

/-- Condition of an opening directive. -/
inductive Cond where
  | ifdef (k : Name) | ifndef (k : Name) | expr (c : List Char)

def Cond.dir : Cond → Dir
  | .ifdef k => .ifdef k
  | .ifndef k => .ifndef k
  | .expr c => .ifc (some c)

/-- Truth of a condition; `ev` gives the truth of a C-like expression. -/
def Cond.holds (ev : List Char → Defs → Bool) (d : Defs) : Cond → Bool
  | .ifdef k => d.has k
  | .ifndef k => !d.has k
  | .expr c => ev c d

mutual
/-- One element of a well-formed file. -/
inductive Item where
  | text (t : List Char)
  | define (k : Name) (v : List Char)
  | undef (k : Name)
  | cond (c : Cond) (body : Items) (rest : Chain)
/-- A sequence of elements. -/
inductive Items where
  | nil
  | cons (i : Item) (is : Items)
/-- What follows the first branch of a conditional. -/
inductive Chain where
  | endif
  | els (body : Items)
  | elif (c : List Char) (body : Items) (rest : Chain)
end

mutual
/-- The lines of a well-formed file. -/
def Item.lines : Item → List Line
  | .text t => [.text t]
  | .define k v => [.dir (.define k v)]
  | .undef k => [.dir (.undef k)]
  | .cond c body rest => .dir c.dir :: (body.lines ++ rest.lines)
def Items.lines : Items → List Line
  | .nil => []
  | .cons i is => i.lines ++ is.lines
def Chain.lines : Chain → List Line
  | .endif => [.dir .endif]
  | .els body => .dir .els :: (body.lines ++ [.dir .endif])
  | .elif c body rest => .dir (.elifc c) :: (body.lines ++ rest.lines)
end

mutual
/-- What the compiler must see of an element: each text line of a branch that is
taken stays, every other line becomes blank; definitions in branches that are
not taken have no effect.  `act` says whether the enclosing branches are taken. -/
def Item.sem (ev : List Char → Defs → Bool) (act : Bool) (d : Defs) :
    Item → Defs × List (List Char)
  | .text t => (d, [if act then t else []])
  | .define k v => (if act then d.set k v else d, [[]])
  | .undef k => (if act then d.remove k else d, [[]])
  | .cond c body rest =>
    let t := c.holds ev d
    let (d1, o1) := body.sem ev (act && t) d
    let (d2, o2) := rest.sem ev act t d1
    (d2, [] :: (o1 ++ o2))
def Items.sem (ev : List Char → Defs → Bool) (act : Bool) (d : Defs) :
    Items → Defs × List (List Char)
  | .nil => (d, [])
  | .cons i is =>
    let (d1, o1) := i.sem ev act d
    let (d2, o2) := is.sem ev act d1
    (d2, o1 ++ o2)
/-- `taken`: an earlier branch of this conditional was taken. -/
def Chain.sem (ev : List Char → Defs → Bool) (act taken : Bool) (d : Defs) :
    Chain → Defs × List (List Char)
  | .endif => (d, [[]])
  | .els body =>
    let (d1, o1) := body.sem ev (act && !taken) d
    (d1, [] :: (o1 ++ [[]]))
  | .elif c body rest =>
    let t := !taken && ev c d
    let (d1, o1) := body.sem ev (act && t) d
    let (d2, o2) := rest.sem ev act (taken || t) d1
    (d2, [] :: (o1 ++ o2))
end

/-- No branch of this chain would be taken on its own: there is no `#else` and
every `#elif` condition is false. -/
def Chain.allFalse (ev : List Char → Defs → Bool) (d : Defs) : Chain → Bool
  | .endif => true
  | .els _ => false
  | .elif c _ rest => !ev c d && rest.allFalse ev d

mutual
/-- In every conditional that is reached, whenever an `#elif` branch is taken, no
later branch of the same conditional is an `#else` or has a true condition. -/
def Item.unamb (ev : List Char → Defs → Bool) (d : Defs) : Item → Bool
  | .cond c body rest =>
    if c.holds ev d then body.unamb ev d else rest.unamb ev d
  | _ => true
def Items.unamb (ev : List Char → Defs → Bool) (d : Defs) : Items → Bool
  | .nil => true
  | .cons i is => i.unamb ev d && is.unamb ev (i.sem ev true d).1
def Chain.unamb (ev : List Char → Defs → Bool) (d : Defs) : Chain → Bool
  | .endif => true
  | .els body => body.unamb ev d
  | .elif c body rest =>
    if ev c d then body.unamb ev d && rest.allFalse ev (body.sem ev true d).1
    else rest.unamb ev d
end

/-- Number of regions open after a sequence of directives, `none` if some
`#endif`, `#else` or `#elif` has nothing to refer to. -/
def depth : Nat → List Line → Option Nat
  | n, [] => some n
  | n, .text _ :: ls => depth n ls
  | n, .dir d :: ls =>
    match d with
    | .ifdef _ | .ifndef _ | .ifc _ => depth (n + 1) ls
    | .elifc _ | .els => if n = 0 then none else depth n ls
    | .endif => if n = 0 then none else depth (n - 1) ls
    | _ => depth n ls

end Ccpp.Preproc.Spec
