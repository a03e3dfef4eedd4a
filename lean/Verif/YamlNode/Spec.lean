import Verif.YamlNode.Model
/-
What documents and objects mean: trees, without memory.
-/
namespace Verif.YamlNode

/-! ### Documents -/

mutual
/-- A document as a tree. -/
inductive Tree where
  | null
  | scalar (s : String)
  | seq (ts : Trees)
  | map (es : Entries)
inductive Trees where
  | nil
  | cons (t : Tree) (ts : Trees)
inductive Entries where
  | nil
  | cons (k : String) (t : Tree) (es : Entries)
end

mutual
/-- The document at node `n` reads as the tree. -/
def Reads (H : Heap) : Nat → Tree → Prop
  | n, .null => H.content n = .null
  | n, .scalar s => H.content n = .scalar s
  | n, .seq ts => ∃ ns, H.content n = .seq ns ∧ ReadsSeq H ns ts
  | n, .map es => ∃ ms, H.content n = .map ms ∧ ReadsMap H ms es
def ReadsSeq (H : Heap) : List Nat → Trees → Prop
  | [], .nil => True
  | n :: ns, .cons t ts => Reads H n t ∧ ReadsSeq H ns ts
  | _, _ => False
def ReadsMap (H : Heap) : List (String × Nat) → Entries → Prop
  | [], .nil => True
  | (k, n) :: ns, .cons k' t es => k = k' ∧ Reads H n t ∧ ReadsMap H ns es
  | _, _ => False
end

/-- The document a handle refers to; null without a node. -/
def Shows (H : Heap) : Handle → Tree → Prop
  | none, t => t = .null
  | some n, t => Reads H n t

/-- The nodes a cell lists. -/
def Content.kids : Content → List Nat
  | .seq ns => ns
  | .map es => es.map (·.2)
  | _ => []

/-- Node `m` is part of the document at node `n`. -/
inductive Within (H : Heap) : Nat → Nat → Prop
  | self (n) : Within H n n
  | kid {n m k} : k ∈ (H.content n).kids → Within H k m → Within H n m

/-- All nodes and cells in use exist. -/
structure Ok (H : Heap) : Prop where
  ref : ∀ n, n < H.nodes → H.ref n < H.cells
  kids : ∀ k, k < H.cells → ∀ m ∈ (H.data k).kids, m < H.nodes

def okHandle (H : Heap) (h : Handle) : Prop := ∀ n, h = some n → n < H.nodes

/-! ### Objects -/

mutual
/-- The nodes that views of the object refer to. -/
def Val.bound : Val → List Nat
  | .scalar _ => []
  | .view none => []
  | .view (some n) => [n]
  | .opt none => []
  | .opt (some v) => v.bound
  | .vec vs => Val.bounds vs
  | .map es => Val.boundEs es
  | .record vs => Val.bounds vs
def Val.bounds : List Val → List Nat
  | [] => []
  | v :: vs => v.bound ++ Val.bounds vs
def Val.boundEs : List (String × Val) → List Nat
  | [] => []
  | (_, v) :: es => v.bound ++ Val.boundEs es
end

def Flds.names : Flds → List String
  | .nil => []
  | .cons name _ rest => name :: rest.names

mutual
/-- No struct has a field name twice (the static assertions at detail/serialization.hpp:752 and 906 check
this). -/
def Ty.Wf : Ty → Prop
  | .scalar _ => True
  | .view => True
  | .opt t => t.Wf
  | .vec t => t.Wf
  | .map t => t.Wf
  | .tup fs => fs.Wf
  | .obj fs => fs.names.Nodup ∧ fs.Wf
def Flds.Wf : Flds → Prop
  | .nil => True
  | .cons _ t rest => t.Wf ∧ rest.Wf
end

mutual
/-- The object has the type; maps have no key twice. -/
def HasTy : Ty → Val → Prop
  | .scalar _, .scalar _ => True
  | .view, .view _ => True
  | .opt t, .opt v => ∀ w, v = some w → HasTy t w
  | .vec t, .vec vs => ∀ v ∈ vs, HasTy t v
  | .map t, .map es => (∀ e ∈ es, HasTy t e.2) ∧ (es.map (·.1)).Nodup
  | .tup fs, .record vs => HasTys fs vs
  | .obj fs, .record vs => HasTys fs vs
  | _, _ => False
def HasTys : Flds → List Val → Prop
  | .nil, [] => True
  | .cons _ t fs, v :: vs => HasTy t v ∧ HasTys fs vs
  | _, _ => False
end

/-- What an object means: views stand for the documents they show. -/
inductive Obj where
  | scalar (s : String)
  | view (t : Tree)
  | opt (v : Option Obj)
  | vec (vs : List Obj)
  | map (es : List (String × Obj))
  | record (vs : List Obj)

mutual
/-- The object in memory means `o`. -/
def Means (H : Heap) : Val → Obj → Prop
  | .scalar s, .scalar s' => s = s'
  | .view h, .view t => Shows H h t
  | .opt none, .opt none => True
  | .opt (some v), .opt (some o) => Means H v o
  | .vec vs, .vec os => MeansAll H vs os
  | .map es, .map os => MeansEntries H es os
  | .record vs, .record os => MeansAll H vs os
  | _, _ => False
def MeansAll (H : Heap) : List Val → List Obj → Prop
  | [], [] => True
  | v :: vs, o :: os => Means H v o ∧ MeansAll H vs os
  | _, _ => False
def MeansEntries (H : Heap) : List (String × Val) → List (String × Obj) → Prop
  | [], [] => True
  | (k, v) :: vs, (k', o) :: os => k = k' ∧ Means H v o ∧ MeansEntries H vs os
  | _, _ => False
end

/-! ### Reading and writing as functions of trees -/

def Trees.toList : Trees → List Tree
  | .nil => []
  | .cons t ts => t :: ts.toList

def Entries.toList : Entries → List (String × Tree)
  | .nil => []
  | .cons k t es => (k, t) :: es.toList

def Trees.ofList : List Tree → Trees
  | [] => .nil
  | t :: ts => .cons t (.ofList ts)

def Entries.ofList : List (String × Tree) → Entries
  | [] => .nil
  | (k, t) :: es => .cons k t (.ofList es)

/-- The first entry with a key decides. -/
def keepFirst (es : List (String × Obj)) (k : String) (o : Obj) : List (String × Obj) :=
  if es.any (fun e => e.1 == k) then es else es ++ [(k, o)]

mutual
/-- The object a tree is read as; `none`: an error. -/
def ofTree : Ty → Tree → Option Obj
  | .scalar p, .scalar s => if p s then some (.scalar s) else none
  | .view, t => some (.view t)
  | .opt _, .null => some (.opt none)
  | .opt t, tr => (ofTree t tr).map fun o => .opt (some o)
  | .vec t, .seq ts => (ts.toList.mapM (ofTree t)).map .vec
  | .map t, .map es =>
    (es.toList.mapM fun e => (ofTree t e.2).map fun o => (e.1, o)).map fun os =>
      .map (os.foldl (fun acc e => keepFirst acc e.1 e.2) [])
  | .tup fs, .seq ts => if fs.length < ts.toList.length then none else (ofSeq fs ts.toList).map .record
  | .obj fs, .map es => (ofMap fs es.toList).map .record
  | .obj fs, .seq ts => if fs.length < ts.toList.length then none else (ofSeq fs ts.toList).map .record
  | _, _ => none
/-- Missing elements are null. -/
def ofSeq : Flds → List Tree → Option (List Obj)
  | .nil, _ => some []
  | .cons _ t fs, ts => do
    let o ← ofTree t (ts.headD .null)
    let os ← ofSeq fs ts.tail
    some (o :: os)
/-- Missing fields are null. -/
def ofMap : Flds → List (String × Tree) → Option (List Obj)
  | .nil, _ => some []
  | .cons name t fs, es => do
    let o ← ofTree t ((es.lookup name).getD .null)
    let os ← ofMap fs es
    some (o :: os)
end

def Obj.isNull : Obj → Bool
  | .opt none => true
  | _ => false

mutual
/-- The tree an object is written as. -/
def toTree (skip : Bool) : Ty → Obj → Tree
  | .scalar _, .scalar s => .scalar s
  | .view, .view t => t
  | .opt t, .opt (some o) => toTree skip t o
  | .vec t, .vec os => .seq (.ofList (os.map (toTree skip t)))
  | .map t, .map es =>
    .map (.ofList ((es.filter fun e => !(skip && e.2.isNull)).map fun e => (e.1, toTree skip t e.2)))
  | .tup fs, .record os => .seq (.ofList (toSeq skip fs os))
  | .obj fs, .record os => .map (.ofList (toMap skip fs os))
  | _, _ => .null
def toSeq (skip : Bool) : Flds → List Obj → List Tree
  | .cons _ t fs, o :: os => toTree skip t o :: toSeq skip fs os
  | _, _ => []
def toMap (skip : Bool) : Flds → List Obj → List (String × Tree)
  | .cons name t fs, o :: os =>
    if skip && o.isNull then toMap skip fs os else (name, toTree skip t o) :: toMap skip fs os
  | _, _ => []
end

/-! ### Later changes -/

/-- What programs do to documents: `YAML::Node{s}`, `h = s`, `h = r`, `h.push_back(r)`, `h[key] = r`. -/
inductive Edit where
  | make (s : String)
  | set (h : Nat) (s : String)
  | assign (h r : Nat)
  | push (h r : Nat)
  | put (h : Nat) (key : String) (r : Nat)

/-- The nodes an edit uses. -/
def Edit.uses : Edit → List Nat
  | .make _ => []
  | .set h _ => [h]
  | .assign h r => [h, r]
  | .push h r => [h, r]
  | .put h _ r => [h, r]

def Edit.run (H : Heap) : Edit → Heap
  | .make s => (H.alloc (.scalar s)).1
  | .set h s => H.setData (H.ref h) (.scalar s)
  | .assign h r => (Verif.YamlNode.assign H (some h) (some r)).1
  | .push h r => addElement h (some r) H
  | .put h key r => addField h key (some r) H

/-- Each edit uses only nodes with `A` and nodes made by earlier edits. -/
def Confined (A : Nat → Prop) (start : Nat) : Heap → List Edit → Prop
  | _, [] => True
  | H, e :: es => (∀ m ∈ e.uses, A m ∨ (start ≤ m ∧ m < H.nodes)) ∧ Confined A start (e.run H) es

def runAll : Heap → List Edit → Heap
  | H, [] => H
  | H, e :: es => runAll (e.run H) es

end Verif.YamlNode
