import Verif.Resource.Model
import Verif.Tracker.Alloc

/-!
The verbs of `include/kl/resource_op.hpp` when memory may run out. The allocator is any automaton; it is asked once for each step of a verb
that may ask for memory, so "the allocator says no" means that the step threw `std::bad_alloc`. No handler of a verb catches that.
Not modelled: types whose copies or moves throw anything else; elements that can be moved only by a constructor that throws (then
`push_back` promises nothing).
-/

namespace Verif.Resource

open Verif.Path Verif.Tracker

/-- The allocator, and what the types of the resource do with it. (resource_op.hpp:397-429) -/
structure Memory (σ : Type) where
  /-- `operator new`: whether there is memory, and the allocator afterwards. -/
  next : σ → Bool × σ
  /-- Moving a value of the type may ask for memory: its move operations are not `noexcept`. (resource_op.hpp:408-418) -/
  costly : Ty → Bool
  /-- What an assignment or `erase` that threw leaves behind. (resource_op.hpp:741, 779, 825, 886, 992, 1059) -/
  torn : Ty → Value → Value → Value

/-- How a verb ends: as in `Outcome`, with `std::bad_alloc`, or in `std::terminate`. (resource_op.hpp:708-712) -/
inductive End where
  | resp (s : Status) (body : Str)
  | thrown (e : Exc)
  | badAlloc
  | terminated
  | stuck
  deriving DecidableEq, Repr

/-- The outcomes that there are without the allocator. (resource_op.hpp:708-712) -/
def End.of : Outcome → End
  | .resp s b => .resp s b
  | .thrown e => .thrown e
  | .stuck => .stuck

/-- A step that may ask for memory; `no` is what happens if there is none. (resource_op.hpp:868-1089) -/
def asking {σ α : Type} (M : Memory σ) (need : Bool) (no yes : σ → α) (s : σ) : α :=
  if need then
    let a := M.next s
    if a.1 then yes a.2 else no a.2
  else yes s

/-- The answer of a handler. That of a conflict has a text, `std::string` of `ex.what()`. (resource_op.hpp:906-913, 961-968, 1010-1017, 1082-1089) -/
def answerA {σ : Type} (M : Memory σ) (r : Resource) (o : Outcome) (s : σ) : Resource × End × σ :=
  match o with
  | .resp .conflict body => asking M true (fun s => (r, .badAlloc, s)) (fun s => (r, .resp .conflict body, s)) s
  | o => (r, .of o, s)

/-- The end of a checked change. (resource_op.hpp:394-457) -/
inductive Change where
  | done
  | failed (e : Err)
  | noMemory
  | terminated

/-- resource_op.hpp:414-418 `~rollback_value` during unwinding: if the assignment throws too, the program is terminated. -/
def restoreA {σ : Type} (M : Memory σ) (t : Ty) (addr : List Nat) (old root1 : Value) (c : Change) (s : σ) : Value × Change × σ :=
  asking M (M.costly t) (fun s => (root1, .terminated, s))
    (fun s =>
      match root1.set old addr with
      | none => (root1, .failed .stuck, s)
      | some root2 => (root2, c, s)) s

/-- resource_op.hpp:394-429 `rollback_value` (`copy`: with `copy_backup`), the change (`moves`: it moves values for which this may ask for
memory), `validate_tree`. -/
def assignCheckedA {β σ : Type} (M : Memory σ) (E : Env β) (T : Ty) (root : Value) (addr : List Nat) (t : Ty) (old new : Value)
    (copy moves : Bool) (s : σ) : Value × Change × σ :=
  asking M (copy || M.costly t) (fun s => (root, .noMemory, s))
    (fun s => asking M moves
      (fun s =>
        match root.set (M.torn t old new) addr with
        | none => (root, .failed .stuck, s)
        | some root1 => restoreA M t addr old root1 .noMemory s)
      (fun s =>
        match root.set new addr with
        | none => (root, .failed .stuck, s)
        | some root1 =>
          match validateTree E T root1 with
          | .ok () => (root1, .done, s)
          | .error e => restoreA M t addr old root1 (.failed e) s) s) s

/-- resource_op.hpp:937-939: `push_back` (which changes nothing if it throws), `pop_back_rollback`, `validate_tree`. -/
def pushCheckedA {β σ : Type} (M : Memory σ) (E : Env β) (T : Ty) (root : Value) (addr : List Nat) (vs : List Value) (x : Value)
    (s : σ) : Value × Change × σ :=
  asking M true (fun s => (root, .noMemory, s))
    (fun s =>
      match pushChecked E T root addr vs x with
      | (root1, .ok ()) => (root1, .done, s)
      | (root1, .error e) => (root1, .failed e, s)) s

/-- `notify_changed` after the commit, and the answer. (resource_op.hpp:745-746, 783-784, 829-830, 890-893, 941-943, 996-999, 1063-1066) -/
def notifiedA {σ : Type} (M : Memory σ) (root : Value) (t : Tracker) (w : Option View) (subtree : Bool) (st : Status) (s : σ) :
    Resource × End × σ :=
  match w with
  | none => (⟨root, t⟩, .stuck, s)
  | some w =>
    match t.notifyA M.next w subtree s with
    | none => (⟨root, t⟩, .stuck, s)
    | some (t', true, s') => (⟨root, t'⟩, .resp st [], s')
    | some (t', false, s') => (⟨root, t'⟩, .badAlloc, s')

/-- What follows a checked change. (resource_op.hpp:886-893, 938-943, 1059-1066) -/
def settleA {σ : Type} (M : Memory σ) (r : Resource) (handler : Err → Outcome) (w : Option View) (subtree : Bool) (st : Status) :
    Value × Change × σ → Resource × End × σ
  | (root, .done, s) => notifiedA M root r.tracker w subtree st s
  | (root, .failed e, s) => answerA M { r with value := root } (handler e) s
  | (root, .noMemory, s) => ({ r with value := root }, .badAlloc, s)
  | (root, .terminated, s) => ({ r with value := root }, .terminated, s)

/-- resource_op.hpp:868-917 `put` and 974-1021 `patch`. The keys made by `find_key` (492-503) and the copy and the deserialization of the
candidate may ask for memory. -/
def replaceNodeA {β σ : Type} (M : Memory σ) (E : Env β) (f : Ty → Value → β → Except Exc Value) (T : Ty) (r : Resource) (w : View)
    (body : β) (s : σ) : Resource × End × σ :=
  match segs w with
  | none => (r, .stuck, s)
  | some path =>
    asking M true (fun s => (r, .badAlloc, s)) (fun s =>
      match visitAtPath E T r.value path 0 with
      | .error e => answerA M r (catchPut e) s
      | .ok n =>
        if n.ctx.isNodeReadOnly n.node then (r, .resp .methodNotAllowed [], s)
        else
          asking M true (fun s => (r, .badAlloc, s)) (fun s =>
            match liftUser (f n.ty n.val body) with
            | .error e => answerA M r (catchPut e) s
            | .ok candidate =>
              match n.node.preservesIdentity E n.val candidate with
              | .error e => answerA M r (catchPut e) s
              | .ok false => (r, .resp .methodNotAllowed [], s)
              | .ok true =>
                settleA M r catchPut (some w) (addressableDescendants n.ty) .ok
                  (assignCheckedA M E T r.value n.addr n.ty n.val candidate false (M.costly n.ty) s)) s) s

/-- resource_op.hpp:919-972 `post`. -/
def postA {β σ : Type} (M : Memory σ) (E : Env β) (T : Ty) (r : Resource) (w : View) (body : β) (s : σ) : Resource × End × σ :=
  match segs w with
  | none => (r, .stuck, s)
  | some path =>
    asking M true (fun s => (r, .badAlloc, s)) (fun s =>
      match visitAtPath E T r.value path 0 with
      | .error e => answerA M r (catchPut e) s
      | .ok n =>
        if n.ctx.isChildNodeReadOnly n.node then (r, .resp .methodNotAllowed [], s)
        else
          match n.ty, n.val with
          | .seq k t, .seq vs =>
            if k.push then
              asking M true (fun s => (r, .badAlloc, s)) (fun s =>
                match liftUser (E.deser t (E.fresh t) body) with
                | .error e => answerA M r (catchPut e) s
                | .ok candidate =>
                  match checkDuplicateChildKey E vs candidate n.node.childKeys with
                  | .error e => answerA M r (catchPut e) s
                  | .ok () =>
                    match validateCandidate E t candidate with
                    | .error e => answerA M r (catchPut e) s
                    | .ok () =>
                      settleA M r catchPut (some w) true .created (pushCheckedA M E T r.value n.addr vs candidate s)) s
            else (r, .resp .methodNotAllowed [], s)
          | .seq _ _, _ => (r, .stuck, s)
          | _, _ => (r, .resp .methodNotAllowed [], s)) s

/-- resource_op.hpp:740-746, 778-784, 824-830. -/
def eraseCheckedA {β σ : Type} (M : Memory σ) (E : Env β) (T : Ty) (r : Resource) (w : View) (n : Target) (smaller : Value)
    (moves : Bool) (s : σ) : Resource × End × σ :=
  settleA M r catchDel w.dropBack true .noContent (assignCheckedA M E T r.value n.addr n.ty n.val smaller true moves s)

/-- resource_op.hpp:716-844 `delete_direct_child`. `erase` of a map moves nothing, that of a sequence moves the elements behind. -/
def deleteDirectChildA {β σ : Type} (M : Memory σ) (E : Env β) (T : Ty) (r : Resource) (w : View) (n : Target) (s : σ) :
    Option (Resource × End × σ) :=
  match n.ty, n.val, n.rest with
  | .map er _, .map es, [x] =>
    some <|
      match findKey es x with
      | none => answerA M r (catchDel (.throws .segmentNotFound)) s
      | some i =>
        if n.ctx.isChildNodeReadOnly n.node then (r, .resp .methodNotAllowed [], s)
        else if er then eraseCheckedA M E T r w n (.map (es.eraseIdx i)) false s
        else (r, .resp .methodNotAllowed [], s)
  | .seq k t, .seq vs, [x] =>
    if n.node.childKeys ≠ [] then
      some <|
        match findKeyed E t vs x n.node.childKeys with
        | .error e => answerA M r (catchDel e) s
        | .ok none => answerA M r (catchDel (.throws .segmentNotFound)) s
        | .ok (some (_, i)) =>
          if n.ctx.isChildNodeReadOnly n.node then (r, .resp .methodNotAllowed [], s)
          else if k.erase then eraseCheckedA M E T r w n (.seq (vs.eraseIdx i)) (M.costly t) s
          else (r, .resp .methodNotAllowed [], s)
    else if k.at_ then
      some <|
        match parseIndex x with
        | none => answerA M r (catchDel (.throws .segmentNotFound)) s
        | some i =>
          if n.ctx.isChildNodeReadOnly n.node then (r, .resp .methodNotAllowed [], s)
          else if k.erase then
            match vs[i]? with
            | none => answerA M r (catchDel (.throws .segmentNotFound)) s
            | some _ => eraseCheckedA M E T r w n (.seq (vs.eraseIdx i)) (M.costly t) s
          else (r, .resp .methodNotAllowed [], s)
    else none
  | .map _ _, _, _ => some (r, .stuck, s)
  | .seq _ _, _, _ => some (r, .stuck, s)
  | _, _, _ => none

/-- resource_op.hpp:1040-1072: the second half of `del`. -/
def deleteOptionalA {β σ : Type} (M : Memory σ) (E : Env β) (T : Ty) (r : Resource) (w : View) (path : List Str) (s : σ) :
    Resource × End × σ :=
  asking M true (fun s => (r, .badAlloc, s)) (fun s =>
    match visitAtPath E T r.value path 0 with
    | .error e => answerA M r (catchDel e) s
    | .ok n =>
      if n.ctx.isNodeReadOnly n.node then (r, .resp .methodNotAllowed [], s)
      else
        match n.ty, n.val with
        | .opt t, .opt v =>
          asking M true (fun s => (r, .badAlloc, s)) (fun s =>
            match validateHeld E t v with
            | .error e => answerA M r (catchDel e) s
            | .ok () =>
              match validateCandidate E (.opt t) (.opt none) with
              | .error e => answerA M r (catchDel e) s
              | .ok () =>
                settleA M r catchDel (some w) (isReflectable t) .noContent
                  (assignCheckedA M E T r.value n.addr n.ty n.val (.opt none) false (M.costly n.ty) s)) s
        | .opt _, _ => (r, .stuck, s)
        | _, _ => (r, .resp .methodNotAllowed [], s)) s

/-- resource_op.hpp:1023-1089 `del`. -/
def delA {β σ : Type} (M : Memory σ) (E : Env β) (T : Ty) (r : Resource) (w : View) (s : σ) : Resource × End × σ :=
  match segs w with
  | none => (r, .stuck, s)
  | some path =>
    if path ≠ [] then
      asking M true (fun s => (r, .badAlloc, s)) (fun s =>
        match visitAtPath E T r.value path 1 with
        | .error e => answerA M r (catchDel e) s
        | .ok n =>
          match deleteDirectChildA M E T r w n s with
          | some result => result
          | none => deleteOptionalA M E T r w path s) s
    else deleteOptionalA M E T r w path s

/-- A call of one of the verbs. (resource_op.hpp:1093-1122) -/
inductive Asked (β : Type) where
  | put (w : View) (body : β)
  | patch (w : View) (body : β)
  | post (w : View) (body : β)
  | del (w : View)

/-- The path of a request. (resource_op.hpp:1100-1122) -/
def Asked.view {β : Type} : Asked β → View
  | .put w _ => w
  | .patch w _ => w
  | .post w _ => w
  | .del w => w

/-- The call if there is memory. (resource_op.hpp:1099-1122) -/
def perform {β : Type} (E : Env β) (T : Ty) (r : Resource) : Asked β → Resource × Outcome
  | .put w b => put E T r w b
  | .patch w b => patch E T r w b
  | .post w b => post E T r w b
  | .del w => del E T r w

/-- The call. (resource_op.hpp:1099-1122) -/
def performA {β σ : Type} (M : Memory σ) (E : Env β) (T : Ty) (r : Resource) (s : σ) : Asked β → Resource × End × σ
  | .put w b => replaceNodeA M E E.deser T r w b s
  | .patch w b => replaceNodeA M E E.patch T r w b s
  | .post w b => postA M E T r w b s
  | .del w => delA M E T r w s

/-- Calls one after the other; the exceptions are caught. (resource_op.hpp:1099-1122) -/
def serveA {β σ : Type} (M : Memory σ) (E : Env β) (T : Ty) (r : Resource) (s : σ) : List (Asked β) → Resource × List End × σ
  | [] => (r, [], s)
  | q :: qs =>
    let a := performA M E T r s q
    let b := serveA M E T a.1 a.2.2 qs
    (b.1, a.2.1 :: b.2.1, b.2.2)

end Verif.Resource
