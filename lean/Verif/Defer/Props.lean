import Verif.Defer.Model

/-! C66: deferred actions run exactly once, last first, on every way out. -/

namespace Verif.Defer

/-! ### Specification -/

/-- A complete block: the action declared by `decl n` runs after everything that follows in
its block, whatever that is, and nothing of the block follows it but earlier declared
actions. -/
inductive Block : List Ev → Prop
  | nil : Block []
  | act {n t} : Block t → Block (.act n :: t)
  | scope {b t} : Block b → Block t → Block (.enter :: b ++ .leave :: t)
  | defer {n t b} : Block t → Block b → Block (.decl n :: t ++ .run n :: b ++ [.done n])

mutual
/-- The same program without its deferred actions: what it does and how it ends. -/
def plain : List Stmt → List Ev × Out
  | [] => ([], .normal)
  | s :: rest => plainCons s (plain rest)

def plainCons (s : Stmt) (r : List Ev × Out) : List Ev × Out :=
  match s with
  | .act n => (.act n :: r.1, r.2)
  | .throw_ => ([], .threw)
  | .ret => ([], .returned)
  | .scope b =>
    let p := plain b
    if p.2 = .normal then (.enter :: p.1 ++ .leave :: r.1, r.2) else (.enter :: p.1 ++ [.leave], p.2)
  | .defer _ _ => r
end

/-- What happens outside of deferred actions: `depth` counts the deferred actions running. -/
def outside : Nat → List Ev → List Ev
  | _, [] => []
  | d, .run _ :: t => outside (d + 1) t
  | d, .done _ :: t => outside (d - 1) t
  | d, .decl _ :: t => outside d t
  | 0, e :: t => e :: outside 0 t
  | d + 1, _ :: t => outside (d + 1) t

/-! ### Proofs -/

theorem unwind_out {objs : List Obj} {o : Out} (h : (unwind objs o).2 ≠ .terminated) :
    (unwind objs o).2 = o := by
  induction objs with
  | nil => rfl
  | cons x objs ih =>
    obtain ⟨n, tr, o'⟩ := x
    cases o' <;> simp only [unwind] at h ⊢ <;> first | exact ih h | exact absurd rfl h

theorem unwind_cons {n : Nat} {c : List Ev × Out} {objs : List Obj} {o : Out}
    (h : (unwind ((n, c) :: objs) o).2 ≠ .terminated) :
    c.2 ≠ .terminated ∧ c.2 ≠ .threw ∧ (unwind objs o).2 ≠ .terminated ∧
    unwind ((n, c) :: objs) o = (.run n :: c.1 ++ .done n :: (unwind objs o).1, (unwind objs o).2) := by
  obtain ⟨tr, o'⟩ := c
  cases o' <;> simp only [unwind] at h ⊢
  · exact ⟨by simp, by simp, h, by simp⟩
  · exact absurd rfl h
  · exact ⟨by simp, by simp, h, by simp⟩
  · exact absurd rfl h

theorem block_append {a b : List Ev} (ha : Block a) : (∀ n, Ev.decl n ∉ a) → Block b → Block (a ++ b) := by
  induction ha with
  | nil => intro _ hb; exact hb
  | act _ ih => intro h hb; exact .act (ih (fun n hn => h n (by simp [hn])) hb)
  | @scope s t hs ht ihs iht =>
    intro h hb
    have := Block.scope hs (iht (fun n hn => h n (by simp [hn])) hb)
    simpa using this
  | @defer n t b' _ _ _ _ => intro h; exact absurd (by simp) (h n)

/-- What a block did: its own part, then the destruction of the objects it already had. -/
theorem exec_form : ∀ (l : List Stmt) (objs : List Obj), (exec objs l).2 ≠ .terminated →
    ∃ t o, exec objs l = (t ++ (unwind objs o).1, (unwind objs o).2) ∧ Block t ∧
      o = (plain l).2 ∧ ∀ d e, outside d (t ++ e) = (if d = 0 then (plain l).1 else []) ++ outside d e
  | [], objs, h => ⟨[], .normal, by simp [exec], .nil, rfl, by intro d e; simp [plain]⟩
  | .act n :: rest, objs, h => by
    simp only [exec, execCons] at h ⊢
    obtain ⟨t, o, h1, h2, h3, h4⟩ := exec_form rest objs h
    refine ⟨.act n :: t, o, by rw [h1]; rfl, .act h2, by simpa [plain, plainCons] using h3, ?_⟩
    intro d e
    cases d with
    | zero => simp [outside, plain, plainCons, h4]
    | succ d => simp [outside, h4]
  | .throw_ :: rest, objs, h =>
    ⟨[], .threw, by simp [exec, execCons], .nil, by simp [plain, plainCons], by
      intro d e; simp [plain, plainCons]⟩
  | .ret :: rest, objs, h =>
    ⟨[], .returned, by simp [exec, execCons], .nil, by simp [plain, plainCons], by
      intro d e; simp [plain, plainCons]⟩
  | .scope b :: rest, objs, h => by
    have hb : (exec [] b).2 ≠ .terminated := by
      intro hb; simp [exec, execCons, hb] at h
    obtain ⟨tb, ob, b1, b2, b3, b4⟩ := exec_form b [] hb
    simp only [unwind, List.append_nil] at b1
    simp only [exec, execCons, b1] at h ⊢
    have hout : ∀ d e, outside d (.enter :: (tb ++ .leave :: e)) =
        (if d = 0 then .enter :: (plain b).1 ++ [.leave] else []) ++ outside d e := by
      intro d e
      cases d with
      | zero => simp [outside, b4]
      | succ d => simp [outside, b4]
    cases ob with
    | normal =>
      simp only at h ⊢
      obtain ⟨t, o, h1, h2, h3, h4⟩ := exec_form rest objs h
      refine ⟨.enter :: tb ++ .leave :: t, o, by rw [h1]; simp, .scope b2 h2, ?_, ?_⟩
      · simp [plain, plainCons, ← b3, h3]
      · intro d e
        simp only [List.cons_append, List.append_assoc]
        rw [hout, h4]
        cases d <;> simp [plain, plainCons, ← b3]
    | threw =>
      simp only at h ⊢
      refine ⟨.enter :: tb ++ [.leave], .threw, by simp, by simpa using Block.scope b2 .nil, ?_, ?_⟩
      · simp [plain, plainCons, ← b3]
      · intro d e
        simp only [List.cons_append, List.append_assoc, List.nil_append]
        rw [hout]
        cases d <;> simp [plain, plainCons, ← b3]
    | returned =>
      simp only at h ⊢
      refine ⟨.enter :: tb ++ [.leave], .returned, by simp, by simpa using Block.scope b2 .nil, ?_, ?_⟩
      · simp [plain, plainCons, ← b3]
      · intro d e
        simp only [List.cons_append, List.append_assoc, List.nil_append]
        rw [hout]
        cases d <;> simp [plain, plainCons, ← b3]
    | terminated => exact absurd (by rw [b1]) hb
  | .defer n b :: rest, objs, h => by
    simp only [exec, execCons] at h ⊢
    obtain ⟨t, o, h1, h2, h3, h4⟩ := exec_form rest ((n, exec [] b) :: objs) h
    have hu : (unwind ((n, exec [] b) :: objs) o).2 ≠ .terminated := by rw [h1] at h; exact h
    obtain ⟨c1, c2, c3, c4⟩ := unwind_cons hu
    obtain ⟨tb, ob, b1, b2, b3, b4⟩ := exec_form b [] c1
    simp only [unwind, List.append_nil] at b1
    refine ⟨.decl n :: t ++ .run n :: tb ++ [.done n], o, ?_, .defer h2 b2, ?_, ?_⟩
    · rw [h1, c4, b1]; simp
    · simpa [plain, plainCons] using h3
    · intro d e
      simp only [List.cons_append, List.append_assoc, List.nil_append]
      simp only [outside, h4, b4]
      simp [plain, plainCons]
termination_by l => sizeOf l

/-- C66: unless a deferred action itself throws, in every function body, with any nesting of
blocks and any way of leaving them, every deferred action runs after the rest of its block and
before earlier declared ones (`Block`), the function ends as it would without deferred actions,
and does the same things in the same order in between. -/
theorem C66_defer (body : List Stmt) (h : (call body).2 ≠ .terminated) :
    Block (call body).1 ∧ (call body).2 = (plain body).2 ∧ outside 0 (call body).1 = (plain body).1 := by
  obtain ⟨t, o, h1, h2, h3, h4⟩ := exec_form body [] h
  simp only [unwind, List.append_nil] at h1
  have h5 := h4 0 []
  simp [outside] at h5
  rw [call, h1]
  exact ⟨h2, h3, h5⟩

/-- Two deferred actions, a nested block that throws, and code that is not reached. -/
example : call [.defer 1 [.act 10], .act 1, .scope [.defer 2 [.act 20, .ret], .act 2, .throw_], .act 3] =
    ([.decl 1, .act 1, .enter, .decl 2, .act 2, .run 2, .act 20, .done 2, .leave, .run 1, .act 10, .done 1],
      .threw) := by
  simp [call, exec, execCons, unwind]

theorem block_count {t : List Ev} (h : Block t) (n : Nat) :
    t.count (.run n) = t.count (.decl n) ∧ t.count (.done n) = t.count (.decl n) := by
  induction h with
  | nil => simp
  | act _ ih => simpa [List.count_cons] using ih
  | scope _ _ ih1 ih2 => simp [List.count_append, List.count_cons]; omega
  | defer _ _ ih1 ih2 => simp [List.count_append, List.count_cons]; omega

/-- C66: every declared action runs exactly once and is finished; what is not declared does
not run. -/
theorem C66_once (body : List Stmt) (h : (call body).2 ≠ .terminated) (n : Nat) :
    (call body).1.count (.run n) = (call body).1.count (.decl n) ∧
    (call body).1.count (.done n) = (call body).1.count (.decl n) :=
  block_count (C66_defer body h).1 n

example : (call [.defer 1 [.act 10], .throw_]).2 ≠ .terminated := by
  simp [call, exec, execCons, unwind]

/-! ### When a deferred action throws -/

mutual
/-- Some deferred action that gets declared throws (or terminates by itself); the rest of a block
after a jump is not reached. -/
def Faulty : List Stmt → Prop
  | [] => False
  | s :: rest => FaultyCons s (Faulty rest)

def FaultyCons (s : Stmt) (k : Prop) : Prop :=
  match s with
  | .act _ => k
  | .throw_ => False
  | .ret => False
  | .scope b => Faulty b ∨ ((plain b).2 = .normal ∧ k)
  | .defer _ b => (plain b).2 = .threw ∨ Faulty b ∨ k
end

theorem unwind_term {objs : List Obj} {o : Out} (ho : o ≠ .terminated) :
    (unwind objs o).2 = .terminated ↔ ∃ x ∈ objs, x.2.2 = .threw ∨ x.2.2 = .terminated := by
  induction objs with
  | nil => simp [unwind, ho]
  | cons x objs ih =>
    obtain ⟨n, tr, o'⟩ := x
    cases o' <;> simp [unwind, ih]

theorem plain_not_term : ∀ l : List Stmt, (plain l).2 ≠ .terminated
  | [] => by simp [plain]
  | .act n :: rest => by simpa [plain, plainCons] using plain_not_term rest
  | .throw_ :: rest => by simp [plain, plainCons]
  | .ret :: rest => by simp [plain, plainCons]
  | .scope b :: rest => by
    simp only [plain, plainCons]
    split
    · exact plain_not_term rest
    · exact plain_not_term b
  | .defer n b :: rest => by simpa [plain, plainCons] using plain_not_term rest
termination_by l => sizeOf l

theorem exec_term : ∀ (l : List Stmt) (objs : List Obj), (exec objs l).2 = .terminated ↔
    Faulty l ∨ ∃ x ∈ objs, x.2.2 = .threw ∨ x.2.2 = .terminated
  | [], objs => by simp [exec, Faulty, unwind_term]
  | .act n :: rest, objs => by simp [exec, execCons, Faulty, FaultyCons, exec_term rest]
  | .throw_ :: rest, objs => by simp [exec, execCons, Faulty, FaultyCons, unwind_term]
  | .ret :: rest, objs => by simp [exec, execCons, Faulty, FaultyCons, unwind_term]
  | .scope b :: rest, objs => by
    have hb := exec_term b []
    simp only [List.not_mem_nil, false_and, exists_false, or_false] at hb
    simp only [exec, execCons, Faulty, FaultyCons]
    by_cases hf : Faulty b
    · have := hb.mpr hf
      simp [this, hf]
    · have hn : (exec [] b).2 ≠ .terminated := fun h => hf (hb.mp h)
      obtain ⟨t, o, h1, -, h3, -⟩ := exec_form b [] hn
      simp only [unwind, List.append_nil] at h1
      rw [h1, ← h3]
      cases o with
      | normal => simp [hf, exec_term rest]
      | threw => simp [hf, unwind_term]
      | returned => simp [hf, unwind_term]
      | terminated => exact absurd (by rw [h1]) hn
  | .defer n b :: rest, objs => by
    have hb := exec_term b []
    simp only [List.not_mem_nil, false_and, exists_false, or_false] at hb
    simp only [exec, execCons, Faulty, FaultyCons, exec_term rest, List.mem_cons, exists_eq_or_imp]
    have hx : ((exec [] b).2 = .threw ∨ (exec [] b).2 = .terminated) ↔
        ((plain b).2 = .threw ∨ Faulty b) := by
      by_cases hf : Faulty b
      · simp [hf, hb.mpr hf]
      · have hn : (exec [] b).2 ≠ .terminated := fun h => hf (hb.mp h)
        obtain ⟨t, o, h1, -, h3, -⟩ := exec_form b [] hn
        simp only [unwind, List.append_nil] at h1
        rw [h1] at hn ⊢
        rw [← h3]
        simp only [hf, or_false]
        exact ⟨fun h => h.resolve_right hn, Or.inl⟩
    rw [hx]
    constructor
    · rintro (h | (h | h) | h)
      · exact Or.inl (Or.inr (Or.inr h))
      · exact Or.inl (Or.inl h)
      · exact Or.inl (Or.inr (Or.inl h))
      · exact Or.inr h
    · rintro ((h | h | h) | h)
      · exact Or.inr (Or.inl (Or.inl h))
      · exact Or.inr (Or.inl (Or.inr h))
      · exact Or.inl h
      · exact Or.inr (Or.inr h)
termination_by l => sizeOf l

/-- C66: the program is terminated exactly when a declared deferred action throws. -/
theorem C66_terminates (body : List Stmt) : (call body).2 = .terminated ↔ Faulty body := by
  simpa [call] using exec_term body []

example : Faulty [.act 1, .defer 2 [.throw_], .ret] ∧ ¬ Faulty [.ret, .defer 2 [.throw_]] := by
  simp [Faulty, FaultyCons, plain, plainCons]

end Verif.Defer
