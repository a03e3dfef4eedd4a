/-
C129: how often an emission copies and moves its arguments.
-/
import Verif.Args.Props

namespace Verif.Args

variable {V : Type}

/-! ### What should be counted -/

/-- What is counted. -/
inductive What where
  | copies
  | moves
deriving DecidableEq

def State.count (st : State V) : What → Nat
  | .copies => st.copies
  | .moves => st.moves

/-- A parameter `p` of an emission is initialised by an argument of the caller. -/
def ofCaller : What → Cat → Mode → Nat
  | .copies, .lvalue, .value | .copies, .clvalue, .value => 1
  | .moves, .xvalue, .value => 1
  | _, _, _ => 0

/-- A parameter `m` of a signal is given to a parameter `p` of a function (or signal) behind a slot: an argument by value is
copied once for each slot and moved if it is wanted by value; of a reference a copy is made only if wanted. -/
def toSlot : What → Mode → Mode → Nat
  | .copies, .value, _ => 1
  | .copies, _, .value => 1
  | .moves, .value, .value => 1
  | _, _, _ => 0

/-- A parameter of a signal at a slot that does not run. -/
def toNobody : What → Mode → Nat
  | .copies, .value => 1
  | _, _ => 0

def sum (f : α → β → Nat) : List α → List β → Nat
  | a :: as, b :: bs => f a b + sum f as bs
  | _, _ => 0

/-- The parameters of what is behind a slot. -/
def Target.params (P : Program V) : Target V → List Mode
  | .fn ps _ | .raw _ ps _ | .shared _ ps _ | .weak _ ps _ => ps
  | .forward sig => P.modes sig

mutual
/-- The copies or moves of the arguments in an emission of a signal with parameters `ms` and slots `ts`. -/
def Event.cost (P : Program V) (k : What) : Event V → List Mode → List (Target V) → Nat
  | .call i _ _ _ _ _ _, ms, ts => match ts[i]? with
    | some t => sum (toSlot k) ms (t.params P)
    | none => 0
  | .forward _ sig _ sub, ms, _ => sum (toSlot k) ms (P.modes sig) + costs P k sub (P.modes sig) (P.slots sig)
  | .skip .., ms, _ => (ms.map (toNobody k)).sum
  | .died _, _, _ => 0
def costs (P : Program V) (k : What) : List (Event V) → List Mode → List (Target V) → Nat
  | [], _, _ => 0
  | e :: es, ms, ts => e.cost P k ms ts + costs P k es ms ts
end

/-- A function that emits no signals. -/
inductive Silent : Body V → Prop where
  | done : Silent .done
  | read : (∀ v, Silent (k v)) → Silent (.read r k)
  | write : Silent k → Silent (.write r v k)
  | take : (∀ v, Silent (k v)) → Silent (.take r k)
  | stop : Silent k → Silent (.stop k)
  | share : Silent k → Silent (.share o k)
  | drop : Silent k → Silent (.drop o k)

/-- The functions behind the slots emit no signals themselves (slots that forward to signals may do). -/
def SilentTarget : Target V → Prop
  | .fn _ b | .raw _ _ b | .shared _ _ b | .weak _ _ b => Silent b
  | .forward _ => True

/-! ### Proofs -/

theorem costs_append (P : Program V) (k : What) (ms : List Mode) (ts : List (Target V)) : ∀ (a b : List (Event V)),
    costs P k (a ++ b) ms ts = costs P k a ms ts + costs P k b ms ts
  | [], b => by simp [costs]
  | e :: a, b => by simp [costs, costs_append P k ms ts a b, Nat.add_assoc]

theorem bindOne_count {gone : V → V} {c : Cat} {m : Mode} {l : Nat} {st st' : State V} {l' : Nat} (k : What)
    (h : bindOne gone c m l st = some (st', l')) : st'.count k = st.count k + ofCaller k c m := by
  obtain ⟨_, ⟨hm, rfl, _⟩ | ⟨rfl, hc, rfl, _⟩ | ⟨rfl, rfl, rfl, _⟩⟩ := bindOne_cases h
  · cases k <;> cases c <;> cases m <;> simp_all [ofCaller]
  · cases k <;> cases c <;> simp_all [ofCaller, State.count, State.alloc]
  · cases k <;> simp [ofCaller, State.count, State.alloc, State.set]

theorem bindAll_count {gone : V → V} (k : What) : ∀ {cs : List Cat} {ms : List Mode} {ls : List Nat} {st st' : State V}
    {cells : List Nat}, bindAll gone cs ms ls st = some (st', cells) →
    st'.count k = st.count k + sum (ofCaller k) cs ms
  | [], [], [], st, st', cells, h => by
    simp only [bindAll, Option.some.injEq, Prod.mk.injEq] at h
    simp [sum, h.1]
  | c :: cs, m :: ms, l :: ls, st, st', cells, h => by
    simp only [bindAll] at h
    split at h
    · cases h
    · rename_i st1 l1 h1
      split at h
      · cases h
      · rename_i st2 ls2 h2
        simp only [Option.some.injEq, Prod.mk.injEq] at h
        obtain ⟨rfl, rfl⟩ := h
        rw [bindAll_count k h2, bindOne_count k h1, sum]
        omega
  | [], [], _ :: _, _, _, _, h => by simp [bindAll] at h
  | [], _ :: _, _, _, _, _, h => by simp [bindAll] at h
  | _ :: _, [], _, _, _, _, h => by simp [bindAll] at h
  | _ :: _, _ :: _, [], _, _, _, h => by simp [bindAll] at h

theorem sum_slot (k : What) : ∀ {ms ps : List Mode}, ps.length = ms.length → (∀ m ∈ ms, m ≠ .rref) →
    sum (ofCaller k) (ms.map Mode.name) ms + sum (ofCaller k) (ms.map Mode.forward) ps = sum (toSlot k) ms ps
  | [], [], _, _ => rfl
  | m :: ms, p :: ps, hl, hr => by
    have ih := sum_slot k (ms := ms) (ps := ps) (by simpa using hl) (fun m hm => hr m (by simp [hm]))
    have h0 : ofCaller k m.name m + ofCaller k m.forward p = toSlot k m p := by
      have := hr m (by simp)
      cases k <;> cases m <;> cases p <;> simp_all [ofCaller, toSlot, Mode.name, Mode.forward]
    simp only [sum, List.map_cons]
    omega
  | [], _ :: _, hl, _ => by simp at hl
  | _ :: _, [], hl, _ => by simp at hl

theorem sum_nobody (k : What) : ∀ {ms : List Mode}, (∀ m ∈ ms, m ≠ .rref) →
    sum (ofCaller k) (ms.map Mode.name) ms = (ms.map (toNobody k)).sum
  | [], _ => rfl
  | m :: ms, hr => by
    have ih := sum_nobody k (ms := ms) (fun m hm => hr m (by simp [hm]))
    have h0 : ofCaller k m.name m = toNobody k m := by
      have := hr m (by simp)
      cases k <;> cases m <;> simp_all [ofCaller, toNobody, Mode.name]
    simp only [sum, List.map_cons, List.sum_cons]
    omega

theorem body_count (P : Program V) (k : What) : ∀ (n : Nat) {b : Body V} {f : Frame} {st st' : State V}
    {evs : List (Event V)} {s : Bool}, Silent b → runBody P n b f st = .ok st' evs s → st'.count k = st.count k
  | 0, _, _, _, _, _, _, _, h => by simp [runBody] at h
  | n + 1, b, f, st, st', evs, s, hs, h => by
    cases hs with
    | done => simp only [runBody, Out.ok.injEq] at h; rw [h.1]
    | read hk =>
      simp only [runBody] at h
      split at h
      · cases h
      · exact body_count P k n (hk _) h
    | write hk =>
      simp only [runBody] at h
      split at h
      · cases h
      · rw [body_count P k n hk h]
        split <;> cases k <;> rfl
    | take hk =>
      simp only [runBody] at h
      split at h
      · cases h
      · rw [body_count P k n (hk _) h]
        split <;> cases k <;> rfl
    | stop hk =>
      simp only [runBody] at h
      obtain ⟨e, t, h, _, _⟩ := after_ok h
      exact body_count P k n hk h
    | share hk =>
      simp only [runBody] at h
      rw [body_count P k n hk h]
      split <;> cases k <;> rfl
    | drop hk =>
      simp only [runBody] at h
      obtain ⟨e, t, h, _, _⟩ := after_ok h
      rw [body_count P k n hk h]
      unfold State.dropUser
      split <;> cases k <;> rfl

theorem fn_count {P : Program V} (k : What) {n i : Nat} {o : Option Nat} {st₀ : State V} {cs : List Cat} {own : List Nat}
    {ps : List Mode} {b : Body V} {st st' : State V} {evs : List (Event V)} {s : Bool} (hb : Silent b)
    (h : callFn P n i o st₀ cs own ps b st = .ok st' evs s) :
    st'.count k = st.count k + sum (ofCaller k) cs ps ∧ ps.length = cs.length ∧
      ∃ cells seen sub, evs = [.call i o st₀ cells seen sub s] := by
  cases n with
  | zero => simp [callFn] at h
  | succ n =>
    simp only [callFn] at h
    split at h
    · cases h
    · rename_i st1 cells h1
      split at h
      · rename_i st2 e s2 h2
        simp only [Out.ok.injEq] at h
        obtain ⟨rfl, rfl, rfl⟩ := h
        exact ⟨by rw [body_count P k n hb h2, bindAll_count k h1], (bindAll_bound h1).lenM, _, _, _, rfl⟩
      · rename_i o hne
        exact absurd h (hne _ _ _)

theorem died_cost (P : Program V) (k : What) (st : State V) (o : Nat) (ms : List Mode) (ts : List (Target V)) :
    costs P k (st.unlock o).2 ms ts = 0 := by
  simp only [State.unlock]
  split <;> simp [costs, Event.cost]

theorem counts (P : Program V) (k : What) (hP : ∀ sig, ∀ t ∈ P.slots sig, SilentTarget t) : ∀ n : Nat,
    (∀ sig cs ls st st' evs s, emit P n sig cs ls st = .ok st' evs s →
      st'.count k = st.count k + sum (ofCaller k) cs (P.modes sig) + costs P k evs (P.modes sig) (P.slots sig)) ∧
    (∀ ms args i sig ts st st' evs s, (P.slots sig).drop i = ts → runSlots P n ms args i ts st = .ok st' evs s →
      st'.count k = st.count k + costs P k evs ms (P.slots sig)) ∧
    (∀ ms args i sig t st st' evs s, (P.slots sig)[i]? = some t → callSlot P n ms args i t st = .ok st' evs s →
      st'.count k = st.count k + costs P k evs ms (P.slots sig))
  | 0 => by simp [emit, runSlots, callSlot]
  | n + 1 => by
    obtain ⟨i1, i2, i3⟩ := counts P k hP n
    refine ⟨?_, ?_, ?_⟩
    · intro sig cs ls st st' evs s h
      simp only [emit] at h
      split at h
      · cases h
      · rename_i st1 args hb
        split at h
        · rename_i st2 e s2 h2
          simp only [Out.ok.injEq] at h
          obtain ⟨rfl, rfl, rfl⟩ := h
          rw [i2 _ _ 0 sig _ _ _ _ _ rfl h2, bindAll_count k hb]
        · rename_i o hne
          exact absurd h (hne _ _ _)
    · intro ms args i sig ts st st' evs s hts h
      cases ts with
      | nil =>
        simp only [runSlots, Out.ok.injEq] at h
        obtain ⟨rfl, rfl, rfl⟩ := h
        simp [costs]
      | cons t ts =>
        have ht : (P.slots sig)[i]? = some t := by
          have := congrArg (·[0]?) hts
          simpa using this
        have hrest : (P.slots sig).drop (i + 1) = ts := by
          have := congrArg (List.drop 1) hts
          simpa [Nat.add_comm] using this
        simp only [runSlots] at h
        split at h
        · rename_i st1 e h1
          simp only [Out.ok.injEq] at h
          obtain ⟨rfl, rfl, rfl⟩ := h
          exact i3 _ _ _ sig _ _ _ _ _ ht h1
        · rename_i st1 e h1
          obtain ⟨e2, s2, h2, rfl, _⟩ := after_ok h
          rw [i2 _ _ _ sig _ _ _ _ _ hrest h2, i3 _ _ _ sig _ _ _ _ _ ht h1, costs_append]
          omega
        · rename_i o hne hne'
          cases s with
          | true => exact absurd h (hne _ _)
          | false => exact absurd h (hne' _ _)
    · intro ms args i sig t st st' evs s ht h
      have hst := hP sig t (List.mem_of_getElem? ht)
      simp only [callSlot] at h
      split at h
      · cases h
      · rename_i st1 own hb
        have hB := bindAll_bound hb
        have hr : ∀ m ∈ ms, m ≠ .rref := by
          rintro m hm rfl
          obtain ⟨j, hj⟩ := List.mem_iff_getElem?.mp hm
          exact hB.no_rref j hj
        have h0 := bindAll_count k hb
        -- a function is called
        have hcall : ∀ {o st2 st3 e s ps b}, st2.count k = st1.count k → t.params P = ps → Silent b →
            callFn P n i o st (ms.map Mode.forward) own ps b st2 = .ok st3 e s →
            st3.count k = st.count k + costs P k e ms (P.slots sig) := by
          intro o st2 st3 e s ps b h2 hp hb' hc
          obtain ⟨h3, hl, cells, seen, sub, rfl⟩ := fn_count k hb' hc
          have := sum_slot k (ms := ms) (ps := ps) (by simpa using hl) hr
          simp only [costs, Event.cost, ht, hp]
          omega
        cases t with
        | fn ps b => exact hcall rfl rfl hst h
        | raw o ps b =>
          simp only at h
          split at h
          · exact hcall rfl rfl hst h
          · cases h
        | shared o ps b =>
          simp only at h
          split at h
          · exact hcall rfl rfl hst h
          · cases h
        | weak o ps b =>
          simp only at h
          split at h
          · split at h
            · rename_i st2 e s2 hc
              simp only [Out.ok.injEq] at h
              obtain ⟨rfl, rfl, rfl⟩ := h
              have hl : (st1.lock o).count k = st1.count k := by cases k <;> rfl
              have hu : (st2.unlock o).1.count k = st2.count k := by cases k <;> rfl
              rw [hu, hcall hl rfl hst hc, costs_append, died_cost]
              omega
            · rename_i o' hne
              exact absurd h (hne _ _ _)
          · simp only [Out.ok.injEq] at h
            obtain ⟨rfl, rfl, rfl⟩ := h
            have := sum_nobody k hr
            simp only [costs, Event.cost]
            omega
        | forward sig' =>
          simp only at h
          split at h
          · rename_i st2 e s2 he
            simp only [Out.ok.injEq] at h
            obtain ⟨rfl, rfl, rfl⟩ := h
            have hl : (P.modes sig').length = ms.length := by
              cases n with
              | zero => simp [emit] at he
              | succ n =>
                simp only [emit] at he
                split at he
                · cases he
                · rename_i hb2
                  have := (bindAll_bound hb2).lenM
                  simpa using this
            have := sum_slot k hl hr
            have := i1 _ _ _ _ _ _ _ he
            simp only [costs, Event.cost]
            omega
          · rename_i o hne
            exact absurd h (hne _ _ _)

/-- C129: an emission copies and moves its arguments exactly as often as the declarations of the signals and functions
demand: an argument by value once per slot (once more if the caller does not move it), and once more moved for each function that
takes it by value; an argument by reference only for functions that take it by value. -/
theorem C129_counts (P : Program V) (hP : ∀ sig, ∀ t ∈ P.slots sig, SilentTarget t) (k : What) (n sig : Nat) (cs : List Cat)
    (ls : List Nat) (st st' : State V) (evs : List (Event V)) (s : Bool) (h : emit P n sig cs ls st = .ok st' evs s) :
    st'.count k = st.count k + sum (ofCaller k) cs (P.modes sig) + costs P k evs (P.modes sig) (P.slots sig) :=
  (counts P k hP n).1 sig cs ls st st' evs s h

/-- No parameter takes its argument by value. -/
def ByReference (ps : List Mode) : Prop := .value ∉ ps

mutual
theorem cost_refs (P : Program V) (k : What) (hs : ∀ sig, ByReference (P.modes sig) ∧ ∀ t ∈ P.slots sig, ByReference (t.params P)) :
    ∀ (e : Event V) (sig : Nat), e.cost P k (P.modes sig) (P.slots sig) = 0
  | .call i _ _ _ _ _ _, sig => by
    simp only [Event.cost]
    split
    · rename_i t ht
      exact sum_refs k _ _ (hs sig).1 ((hs sig).2 t (List.mem_of_getElem? ht))
    · rfl
  | .forward _ sig' _ sub, sig => by
    simp only [Event.cost, costs_refs P k hs sub sig', sum_refs k _ _ (hs sig).1 (hs sig').1]
  | .skip .., sig => by
    simp only [Event.cost]
    exact nobody_refs k _ (hs sig).1
  | .died _, _ => rfl
theorem costs_refs (P : Program V) (k : What) (hs : ∀ sig, ByReference (P.modes sig) ∧ ∀ t ∈ P.slots sig, ByReference (t.params P)) :
    ∀ (es : List (Event V)) (sig : Nat), costs P k es (P.modes sig) (P.slots sig) = 0
  | [], _ => rfl
  | e :: es, sig => by simp only [costs, cost_refs P k hs e sig, costs_refs P k hs es sig]
theorem sum_refs (k : What) : ∀ (ms ps : List Mode), ByReference ms → ByReference ps → sum (toSlot k) ms ps = 0
  | [], _, _, _ => by simp [sum]
  | _ :: _, [], _, _ => by simp [sum]
  | m :: ms, p :: ps, hm, hp => by
    have := sum_refs k ms ps (fun h => hm (.tail _ h)) (fun h => hp (.tail _ h))
    have hm' : m ≠ .value := fun h => hm (h ▸ .head _)
    have hp' : p ≠ .value := fun h => hp (h ▸ .head _)
    simp only [sum, this]
    cases k <;> cases m <;> cases p <;> simp_all [toSlot]
theorem nobody_refs (k : What) : ∀ (ms : List Mode), ByReference ms → (ms.map (toNobody k)).sum = 0
  | [], _ => rfl
  | m :: ms, hm => by
    have := nobody_refs k ms (fun h => hm (.tail _ h))
    have hm' : m ≠ .value := fun h => hm (h ▸ .head _)
    simp only [List.map_cons, List.sum_cons, this]
    cases k <;> cases m <;> simp_all [toNobody]
end

/-- C129: if all signals and functions take references, an emission neither copies nor moves anything. -/
theorem C129_no_copies (P : Program V) (hP : ∀ sig, ∀ t ∈ P.slots sig, SilentTarget t)
    (hs : ∀ sig, ByReference (P.modes sig) ∧ ∀ t ∈ P.slots sig, ByReference (t.params P)) (n sig : Nat) (cs : List Cat)
    (ls : List Nat) (st st' : State V) (evs : List (Event V)) (s : Bool) (h : emit P n sig cs ls st = .ok st' evs s) :
    st'.copies = st.copies ∧ st'.moves = st.moves := by
  have hc : ∀ (k : What) (cs : List Cat) (ms : List Mode), ByReference ms → sum (ofCaller k) cs ms = 0 := by
    intro k cs
    induction cs with
    | nil => intro ms _; simp [sum]
    | cons c cs ih =>
      intro ms hm
      cases ms with
      | nil => simp [sum]
      | cons m ms =>
        have hm' : m ≠ .value := fun h => hm (h ▸ .head _)
        simp only [sum, ih ms (fun h => hm (.tail _ h))]
        cases k <;> cases c <;> cases m <;> simp_all [ofCaller]
  have h1 := C129_counts P hP .copies n sig cs ls st st' evs s h
  have h2 := C129_counts P hP .moves n sig cs ls st st' evs s h
  rw [hc _ _ _ (hs sig).1, costs_refs P _ hs evs sig] at h1 h2
  exact ⟨h1, h2⟩

/-! ### Examples: tests/signal_test.cpp:862-903, and a signal that forwards -/

/-- Signal 0 `void(counter)` with two slots by value, signal 1 `void(const counter&)` with two by reference, signal 2
`void(const counter&)` with two by value, signal 3 `void(counter)` that forwards to the first and the second, and has
a slot of an object that is gone. -/
def counted : Program Nat where
  modes := fun
    | 0 | 3 => [.value]
    | _ => [.cref]
  slots := fun
    | 0 => [.fn [.value] .done, .fn [.value] .done]
    | 1 => [.fn [.cref] .done, .fn [.cref] .done]
    | 2 => [.fn [.value] .done, .fn [.value] .done]
    | 3 => [.forward 0, .forward 1, .weak 0 [.value] .done, .fn [.rref] (.take (.param 0) fun _ => .done)]
    | _ => []
  globals := 0
  gone := fun _ => 0

def Out.counts : Out V → Option (Nat × Nat)
  | .ok st _ _ => some (st.copies, st.moves)
  | _ => none

def object : State Nat := { mem := fun _ => 5, next := 1, users := fun _ => 0, held := fun _ => 0 }

/- `s0(counter{})`: the parameter of `operator()` is the object itself. -/
example : (runSlots counted 20 [.value] [0] 0 (counted.slots 0) object).counts = some (2, 2) := by decide +kernel
/- `s1(c)` -/
example : (emit counted 20 1 [.lvalue] [0] object).counts = some (0, 0) := by decide +kernel
/- `s(counter{})` -/
example : (emit counted 20 2 [.xvalue] [0] object).counts = some (2, 0) := by decide +kernel
/- Emitting the fourth: one copy for the caller's object, one for each of the four slots, two in the signal forwarded to. -/
example : (emit counted 20 3 [.lvalue] [0] object).counts = some (7, 3) := by decide +kernel

/-- The hypothesis of `C129_counts`. -/
example : ∀ sig, ∀ t ∈ counted.slots sig, SilentTarget t := by
  intro sig t ht
  match sig with
  | 0 | 1 | 2 => simp [counted] at ht; subst ht; exact .done
  | 3 =>
    simp [counted] at ht
    rcases ht with rfl | rfl | rfl | rfl
    · trivial
    · trivial
    · exact .done
    · exact .take fun _ => .done
  | _ + 4 => simp [counted] at ht

/-- Signals that satisfy the hypotheses of `C129_no_copies`. -/
def referring : Program Nat where
  modes := fun _ => [.cref, .lref]
  slots := fun
    | 0 => [.fn [.cref, .lref] (.write (.param 1) 3 .done), .forward 1]
    | 1 => [.weak 0 [.cref, .cref] .done]
    | _ => []
  globals := 0
  gone := fun _ => 0

example : (∀ sig, ∀ t ∈ referring.slots sig, SilentTarget t) ∧
    (∀ sig, ByReference (referring.modes sig) ∧ ∀ t ∈ referring.slots sig, ByReference (t.params referring)) ∧
    (emit referring 20 0 [.lvalue, .lvalue] [0, 1] { object with next := 2 }).counts = some (0, 0) := by
  refine ⟨?_, ?_, by decide +kernel⟩
  · intro sig t ht
    match sig with
    | 0 => simp [referring] at ht; rcases ht with rfl | rfl; exact .write .done; trivial
    | 1 => simp [referring] at ht; subst ht; exact .done
    | _ + 2 => simp [referring] at ht
  · intro sig
    refine ⟨by simp [ByReference, referring], fun t ht => ?_⟩
    match sig with
    | 0 => simp [referring] at ht; rcases ht with rfl | rfl <;> simp [ByReference, Target.params, referring]
    | 1 => simp [referring] at ht; subst ht; simp [ByReference, Target.params]
    | _ + 2 => simp [referring] at ht

end Verif.Args
