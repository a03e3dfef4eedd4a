/-
C114: what the functions behind slots get.
C115: the objects behind slots.
-/
import Verif.Args.Life

namespace Verif.Args

variable {V : Type}

/-! ### A program for the examples -/

/-- Signal 0 has parameters `T` and `T&`, signal 1 `const T&` and `T&`, signal 2 `T`.  The values are
numbers; moving leaves 0. -/
def sample : Program Nat where
  modes := fun
    | 0 => [.value, .lref]
    | 1 => [.cref, .lref]
    | 2 => [.value]
    | _ => [.rref]
  slots := fun
    | 0 => [
        -- takes its argument away and adds 1 to the object
        .fn [.value, .lref] (.take (.param 0) fun _ => .read (.param 1) fun v => .write (.param 1) (v + 1) .done),
        -- a member function with `T&&`, and a copy of the object
        .shared 0 [.rref, .value] (.take (.param 0) fun _ => .write (.param 1) 77 .done),
        .forward 1,
        .weak 1 [.cref, .cref] .done,
        .fn [.value, .lref] (.stop .done),
        .fn [.value, .lref] .done]
    | 1 => [
        .fn [.value, .lref] (.write (.param 1) 50 .done),
        .raw 2 [.cref, .value] (.emit 2 [.obj (.param 0)] .done)]
    | 2 => [.weak 3 [.value] (.drop 3 (.write (.param 0) 9 .done)), .weak 3 [.value] .done]
    | _ => [.fn [.rref] .done]
  globals := 1
  gone := fun _ => 0

def start : State Nat where
  mem := fun l => 10 * l
  next := 4
  users := fun o => if o = 3 then 1 else 0
  held := fun o => if o = 0 ∨ o = 2 then 1 else 0

/-- The calls of functions with the values they see, and what became of objects. -/
inductive Note where
  | call (i : Nat) (seen : List Nat)
  | skip (i : Nat)
  | died (o : Nat)
deriving DecidableEq

mutual
def note : Event Nat → List Note
  | .call i _ _ _ seen sub _ => .call i seen :: notes sub
  | .forward _ _ _ sub => notes sub
  | .skip i _ _ => [.skip i]
  | .died o => [.died o]
def notes : List (Event Nat) → List Note
  | [] => []
  | e :: es => note e ++ notes es
end

def Out.notes : Out Nat → Option (List Note × List Nat)
  | .ok st evs _ => some (Args.notes evs, [st.mem 1, st.mem 2, st.mem 3])
  | _ => none

def Out.isUb : Out Nat → Bool
  | .ub => true
  | _ => false

theorem Out.eq_ub {o : Out Nat} (h : o.isUb = true) : o = .ub := by
  cases o <;> first | rfl | cases h

/-- `signal0(std::move(a), b)` with `a = 20`, `b = 30`. -/
example : (emit sample 20 0 [.xvalue, .lvalue] [2, 3] start).notes = some ([
    .call 0 [20, 30], .call 1 [20, 31],
    -- the slots of signal 1, the second of which emits signal 2
    .call 0 [20, 31], .call 1 [20, 50], .call 0 [20], .died 3, .skip 1,
    .skip 3, .call 4 [20, 50]],
    [10, 0, 50]) := by decide +kernel

/-! ### C114 -/

/-- C114: in every emission the slots are called in order until one of them stops it, and each gets
the arguments as `Delivers` says: an argument passed by value always has the value it had when the
emission began, in an object of the call's own, whatever the other slots did to theirs; an argument
passed by reference is the very object; all this also behind signals that forward. -/
theorem C114_delivery (P : Program V) (n sig : Nat) (cs : List Cat) (ls : List Nat) (st st' : State V)
    (evs : List (Event V)) (s : Bool) (h : emit P n sig cs ls st = .ok st' evs s)
    (hg : P.globals ≤ st.next) (hl : ∀ l ∈ ls, l < st.next) (hm : MovedOnce cs (P.modes sig) ls) :
    ∃ b, Delivers P (P.modes sig) (ls.map st.mem) ls 0 (P.slots sig) evs b :=
  (delivers P n).1 sig cs ls st st' evs s h hg hl hm

/-- C114: the objects of the caller.  One that is neither global nor passed as `T&` or moved is as
before; one that was moved into a parameter is left moved from, once, however many slots there are. -/
theorem C114_caller (P : Program V) (n sig : Nat) (cs : List Cat) (ls : List Nat) (st st' : State V)
    (evs : List (Event V)) (s : Bool) (h : emit P n sig cs ls st = .ok st' evs s) (l : Nat)
    (hl : l < st.next) (hg : P.globals ≤ l) :
    ((∀ j : Nat, ls[j]? = some l → (P.modes sig)[j]? = some .cref ∨
        ((P.modes sig)[j]? = some .value ∧ cs[j]? ≠ some .xvalue)) → st'.mem l = st.mem l) ∧
    (∀ j : Nat, ls[j]? = some l → (P.modes sig)[j]? = some .value → cs[j]? = some .xvalue →
      MovedOnce cs (P.modes sig) ls → (∀ k ∈ ls, k < st.next) → st'.mem l = P.gone (st.mem l)) := by
  refine ⟨fun hq => ((frame P n).2.1 _ _ _ _ _ _ _ h).2 l hl hg fun j hj => .inr (hq j hj), ?_⟩
  intro j hj hm hc hmo hls
  cases n with
  | zero => simp [emit] at h
  | succ n =>
    simp only [emit] at h
    split at h
    · cases h
    · rename_i st1 args hb
      have hB := bindAll_bound hb
      split at h
      · rename_i st2 evs2 s2 hs
        simp only [Out.ok.injEq] at h
        obtain ⟨rfl, _, _⟩ := h
        rw [((frame P n).2.2.1 _ _ _ _ _ _ _ _ hs).2 l (Nat.lt_of_lt_of_le hl hB.next) hg,
          (bindAll_values hb hmo hls).2 j l ⟨hc, hm⟩ hj]
        intro k hk hlref
        have := hB.refs k _ hlref nofun
        rw [hk] at this
        have := hmo j k l hj this.symm hc hm
        subst this
        rw [hm] at hlref; cases hlref
      · rename_i o hne
        exact absurd h (hne _ _ _)

/-- The functions that can be connected: parameters `p` for arguments `m` of the signal. -/
inductive Accepts : Mode → Mode → Prop where
  | byValue : Accepts m .value
  | const : Accepts m .cref
  | moved : Accepts .value .rref
  | same : Accepts .lref .lref

theorem accepts_iff {m p : Mode} (hm : m ≠ .rref) : binds m.forward p = true ↔ Accepts m p := by
  constructor
  · intro h
    cases m <;> cases p <;> first | exact .byValue | exact .const | exact .moved | exact .same | simp_all [binds, Mode.forward]
  · intro h
    cases h with
    | byValue => cases m <;> rfl
    | const => cases m <;> rfl
    | moved => rfl
    | same => rfl

theorem bindAll_some {gone : V → V} : ∀ {cs : List Cat} {ms : List Mode} {ls : List Nat} {st : State V},
    ms.length = cs.length → ls.length = cs.length →
    (∀ (j : Nat) c m, cs[j]? = some c → ms[j]? = some m → binds c m = true) →
    ∃ st' cells, bindAll gone cs ms ls st = some (st', cells)
  | [], [], [], st, _, _, _ => ⟨st, [], rfl⟩
  | c :: cs, m :: ms, l :: ls, st, h1, h2, h => by
    have hb := h 0 c m rfl rfl
    have h0 : ∃ st1 l1, bindOne gone c m l st = some (st1, l1) := by
      unfold bindOne
      rw [if_pos hb]
      cases m with
      | value => exact ⟨_, _, rfl⟩
      | cref | lref | rref => exact ⟨_, _, rfl⟩
    obtain ⟨st1, l1, h0⟩ := h0
    obtain ⟨st2, ls2, h2⟩ := bindAll_some (gone := gone) (cs := cs) (ms := ms) (ls := ls) (st := st1)
      (by simpa using h1) (by simpa using h2) (fun j c m a b => h (j + 1) c m (by simpa using a) (by simpa using b))
    exact ⟨st2, l1 :: ls2, by simp only [bindAll, h0, h2]⟩
  | [], _ :: _, _, _, h, _, _ => by simp at h
  | [], [], _ :: _, _, _, h, _ => by simp at h
  | _ :: _, [], _, _, h, _, _ => by simp at h
  | _ :: _, _ :: _, [], _, _, h, _ => by simp at h

/-- C114: a call of a slot with a function of parameters `ps` compiles exactly if there are as many
as the signal has and each accepts what the signal passes; and if the signal has no parameter `T&&`. -/
theorem C114_signatures (P : Program V) (n : Nat) (ms ps : List Mode) (args : List Nat) (i : Nat)
    (st : State V) (hn : 3 ≤ n) (ha : args.length = ms.length) :
    (∃ st' evs s, callSlot P n ms args i (.fn ps .done) st = .ok st' evs s) ↔
      (∀ m ∈ ms, m ≠ .rref) ∧ ps.length = ms.length ∧
      ∀ (j : Nat) m p, ms[j]? = some m → ps[j]? = some p → Accepts m p := by
  obtain ⟨k, rfl⟩ : ∃ k, n = k + 3 := ⟨n - 3, by omega⟩
  constructor
  · rintro ⟨st', evs, s, h⟩
    simp only [callSlot] at h
    split at h
    · cases h
    · rename_i st1 own hb
      have hB := bindAll_bound hb
      have hr : ∀ m ∈ ms, m ≠ .rref := by
        rintro m hm rfl
        obtain ⟨j, hj⟩ := List.mem_iff_getElem?.mp hm
        exact hB.no_rref j hj
      obtain ⟨_, st2, cells, sub, _, hb2, _, _⟩ := callFn_ok h
      have hB2 := bindAll_bound hb2
      refine ⟨hr, by rw [hB2.lenM]; simp, ?_⟩
      intro j m p hm hp
      rw [← accepts_iff (hr m (List.mem_of_getElem? hm))]
      exact hB2.binds j _ _ (by simp [hm]) hp
  · rintro ⟨hr, hl, hacc⟩
    obtain ⟨st1, own, hb⟩ := bindAll_some (gone := P.gone) (cs := ms.map Mode.name) (ms := ms) (ls := args)
      (st := st) (by simp) (by simp [ha]) (by
        intro j c m hc hm
        simp only [List.getElem?_map, hm, Option.map_some, Option.some.injEq] at hc
        subst hc
        have := hr m (List.mem_of_getElem? hm)
        cases m <;> simp_all [binds, Mode.name])
    have hB := bindAll_bound hb
    obtain ⟨st2, cells, hb2⟩ := bindAll_some (gone := P.gone) (cs := ms.map Mode.forward) (ms := ps) (ls := own)
      (st := st1) (by simp [hl]) (by rw [hB.lenC]; simp) (by
        intro j c p hc hp
        simp only [List.getElem?_map, Option.map_eq_some_iff] at hc
        obtain ⟨m, hm, rfl⟩ := hc
        rw [accepts_iff (hr m (List.mem_of_getElem? hm))]
        exact hacc j m p hm hp)
    exact ⟨st2, [.call i none st cells (cells.map st2.mem) [] false], false, by
      simp only [callSlot, hb, callFn, hb2, runBody]⟩

/-- A signal of `void(T, T&)` accepts `void(T&&, const T&)`, not `void(T&, T&)`. -/
example : Accepts .value .rref ∧ Accepts .lref .cref ∧ ¬ Accepts .value .lref :=
  ⟨.moved, .const, nofun⟩

/-- C114: a signal with a parameter `T&&` cannot be emitted (its parameters are passed on by name,
signal.hpp:630). -/
theorem C114_rvalue_violated (P : Program V) (n sig : Nat) (cs : List Cat) (ls : List Nat) (st st' : State V)
    (evs : List (Event V)) (s : Bool) (hr : .rref ∈ P.modes sig) (hs : P.slots sig ≠ []) :
    emit P n sig cs ls st ≠ .ok st' evs s := by
  intro h
  cases n with
  | zero => simp [emit] at h
  | succ n =>
    simp only [emit] at h
    split at h
    · cases h
    · rename_i st1 args hb
      split at h
      · rename_i st2 evs2 s2 hrun
        obtain ⟨t, ts, hts⟩ := List.exists_cons_of_ne_nil hs
        rw [hts] at hrun
        obtain ⟨j, hj⟩ := List.mem_iff_getElem?.mp hr
        have hcall : ∀ {n i st'' evs s}, callSlot P n (P.modes sig) args i t st1 = .ok st'' evs s → False := by
          intro n i st'' evs s hc
          cases n with
          | zero => simp [callSlot] at hc
          | succ n =>
            simp only [callSlot] at hc
            split at hc
            · cases hc
            · rename_i st3 own hb3
              exact (bindAll_bound hb3).no_rref j hj
        cases n with
        | zero => simp [runSlots] at hrun
        | succ n =>
          simp only [runSlots] at hrun
          split at hrun
          · rename_i hc; exact hcall hc
          · rename_i hc; exact hcall hc
          · rename_i o hne hne'
            cases s2 with
            | true => exact absurd hrun (hne _ _)
            | false => exact absurd hrun (hne' _ _)
      · rename_i o hne
        exact absurd h (hne _ _ _)

example : .rref ∈ sample.modes 3 ∧ sample.slots 3 ≠ [] := ⟨.head _, nofun⟩

/-- The hypotheses of `C114_delivery` in the example above. -/
example : sample.globals ≤ start.next ∧ (∀ l ∈ [2, 3], l < start.next) ∧
    MovedOnce [.xvalue, .lvalue] (sample.modes 0) [2, 3] := by
  refine ⟨by decide, by decide, ?_⟩
  intro j k l hj hk hx hm
  match j, k with
  | 0, 0 => rfl
  | 0, 1 => simp at hj hk; omega
  | 0, k + 2 => simp at hk
  | 1, _ => simp at hx
  | j + 2, _ => simp at hj

/-! ### C115 -/

/-- C115: a member function behind a slot starts only on an object that lives, an object is
destroyed at most once, exactly when its last owner goes, and slots that ran leave no owner behind. -/
theorem C115_life (P : Program V) (n sig : Nat) (cs : List Cat) (ls : List Nat) (st st' : State V)
    (evs : List (Event V)) (s : Bool) (h : emit P n sig cs ls st = .ok st' evs s) :
    st'.held = st.held ∧ ∀ o, Life o (st.alive o) (acts evs) (st'.alive o) :=
  (lives P n).2.1 sig cs ls st st' evs s h

/-- C115: an object is not destroyed while a slot runs one of its member functions, even if the
function gives up the last `shared_ptr`; for objects behind pointers and references, somebody must
keep them. -/
theorem C115_kept (P : Program V) (n sig : Nat) (cs : List Cat) (ls : List Nat) (st st' : State V)
    (evs : List (Event V)) (s : Bool) (h : emit P n sig cs ls st = .ok st' evs s) (ho : Owned P st) :
    Kept (Outlives P st) evs :=
  (keptAll P (Outlives P st) n).2.1 sig cs ls st st' evs s h ho fun _ h => h

/-- C115: no member function of a destroyed object is called, if the objects behind pointers and
references are kept. -/
theorem C115_safe (P : Program V) (n sig : Nat) (cs : List Cat) (ls : List Nat) (st : State V)
    (ho : Owned P st) (hr : ∀ o, Outlives P st o) : emit P n sig cs ls st ≠ .ub :=
  (no_ub P n).2.1 sig cs ls st ho hr

example : Owned sample start ∧ ∀ o, Outlives sample start o := by
  constructor
  · intro sig o ps body h
    match sig with
    | 0 => simp [sample] at h; rw [h.1]; decide
    | 1 => simp [sample] at h
    | 2 => simp [sample] at h
    | _ + 3 => simp [sample] at h
  · intro o sig ps body h
    match sig with
    | 0 => simp [sample] at h
    | 1 => simp [sample] at h; rw [h.1]; decide
    | 2 => simp [sample] at h
    | _ + 3 => simp [sample] at h

/-- C115: a slot with a `weak_ptr` runs its function exactly if the object lives, and the others
are called all the same. -/
theorem C115_weak (P : Program V) (n : Nat) (ms : List Mode) (args : List Nat) (i o : Nat) (ps : List Mode)
    (body : Body V) (st st' : State V) (evs : List (Event V)) (s : Bool)
    (h : callSlot P n ms args i (.weak o ps body) st = .ok st' evs s) :
    (st.alive o = true ∧ ∃ cells seen sub last, evs = .call i (some o) st cells seen sub s :: last ∧
      (last = [.died o] ∧ st'.alive o = false ∨ last = [] ∧ st'.alive o = true)) ∨
    (st.alive o = false ∧ evs = [.skip i o st] ∧ s = false) := by
  cases n with
  | zero => simp [callSlot] at h
  | succ n =>
    simp only [callSlot] at h
    split at h
    · cases h
    · rename_i st1 own hb
      have hB := bindAll_bound hb
      have ha : st1.alive o = st.alive o := by simp only [State.alive, hB.users, hB.held]
      split at h
      · rename_i hal
        split at h
        · rename_i st2 evs2 s2 hc
          simp only [Out.ok.injEq] at h
          obtain ⟨rfl, rfl, rfl⟩ := h
          obtain ⟨_, st3, cells, sub, _, _, _, rfl⟩ := callFn_ok hc
          refine .inl ⟨ha ▸ hal, cells, _, sub, (st2.unlock o).2, rfl, ?_⟩
          by_cases hu : (st2.unlock o).1.alive o = true
          · right
            refine ⟨?_, hu⟩
            have hu' := hu
            simp only [State.unlock] at hu' ⊢
            rw [if_pos hu']
          · left
            refine ⟨?_, by simpa using hu⟩
            have hu' := hu
            simp only [State.unlock] at hu' ⊢
            rw [if_neg hu']
        · rename_i o hne
          exact absurd h (hne _ _ _)
      · rename_i hal
        simp only [Out.ok.injEq] at h
        obtain ⟨rfl, rfl, rfl⟩ := h
        exact .inr ⟨by rw [← ha]; simpa using hal, rfl, rfl⟩

/-- Both cases occur in the example: the first slot of signal 2 runs, gives up the last
`shared_ptr` to its object, which is destroyed when it returns; then the second is skipped. -/
example : (emit sample 20 2 [.lvalue] [2] start).notes =
    some ([.call 0 [20], .died 3, .skip 1], [10, 20, 30]) := by decide +kernel

/-- C115, in contrast: with a pointer to an object that a slot destroys, the next slot is undefined. -/
theorem C115_raw_violated : ∃ (P : Program Nat) (st : State Nat), Owned P st ∧
    (∀ o, st.alive o = true) ∧ emit P 20 0 [] [] st = .ub :=
  ⟨⟨fun _ => [], fun sig => if sig = 0 then [.raw 0 [] (.drop 0 .done), .raw 0 [] .done] else [], 0, id⟩,
   ⟨fun _ => 0, 0, fun _ => 1, fun _ => 0, 0, 0⟩,
   by
    intro sig o ps body h
    simp only at h
    split at h <;> simp at h,
   fun _ => rfl, Out.eq_ub (by decide +kernel)⟩

end Verif.Args
