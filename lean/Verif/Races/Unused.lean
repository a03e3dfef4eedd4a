import Verif.Races.Guards

/-! A signal that nobody refers to is not accessed any more. -/

namespace Verif.Races

variable {st : State} {t g : Nat}

/-- An action on a signal: on its mutex or its data members. -/
def UsesSig (g : Nat) (e : Ev) : Prop :=
  e.sync = .lock g ∨ e.sync = .unlock g ∨ ∃ w, (Loc.fld g, w) ∈ e.acc ∨ (Loc.mtx g, w) ∈ e.acc

/-- Nobody refers to the signal: no thread knows it or can get to know it, no function of the library that
has not returned works on it, and no slot refers to it. -/
structure Unused (st : State) (g : Nat) : Prop where
  knows : ∀ u, g ∉ (st.threads u).knows
  boxes : ∀ k, g ∉ st.boxS k
  code : ∀ u, g ∉ (st.threads u).code.sigs ∧ g ∉ (st.threads u).code.locks
  calls : ∀ u, ∀ c ∈ (st.threads u).calls, c.sig ≠ g
  sender : ∀ s, st.mem.sender s ≠ some g
  made : g < st.mem.nsigs

/-- What happened between: no action on `g`, and no slot refers to it. -/
structure UR (g : Nat) (m m' : Mem) : Prop where
  tr : ∃ l, m'.tr = m.tr ++ l ∧ ∀ e ∈ l, ¬ UsesSig g e
  sender : (∀ s, m.sender s ≠ some g) → ∀ s, m'.sender s ≠ some g
  nsigs : m.nsigs ≤ m'.nsigs

theorem UR.trans {m m' m'' : Mem} (h : UR g m m') (h' : UR g m' m'') : UR g m m'' where
  tr := by
    obtain ⟨l, h1, h2⟩ := h.tr
    obtain ⟨l', h3, h4⟩ := h'.tr
    refine ⟨l ++ l', by rw [h3, h1, List.append_assoc], fun e he => ?_⟩
    rcases List.mem_append.1 he with he | he
    · exact h2 e he
    · exact h4 e he
  sender := fun x => h'.sender (h.sender x)
  nsigs := Nat.le_trans h.nsigs h'.nsigs

theorem ur_same {m m' : Mem} (h1 : m'.tr = m.tr) (h2 : m'.sender = m.sender) (h3 : m'.nsigs = m.nsigs) : UR g m m' :=
  ⟨⟨[], by simp [h1], by simp⟩, by rw [h2]; exact id, by omega⟩

theorem ur_refl (m : Mem) : UR g m m := ur_same rfl rfl rfl

theorem ur_ev {m m' : Mem} {e : Ev} (hn : ¬ UsesSig g e) (h1 : m'.tr = m.tr ++ [e]) (h2 : m'.sender = m.sender)
    (h3 : m'.nsigs = m.nsigs) : UR g m m' :=
  ⟨⟨[e], h1, by simpa using hn⟩, by rw [h2]; exact id, by omega⟩

/-- No access to a signal. -/
def NoSig (g : Nat) (acc : List (Loc × Bool)) : Prop := ∀ w, (Loc.fld g, w) ∉ acc ∧ (Loc.mtx g, w) ∉ acc

theorem notUses {u : Nat} {y : Sync} {acc : List (Loc × Bool)} (h1 : y ≠ .lock g) (h2 : y ≠ .unlock g) (h : NoSig g acc) :
    ¬ UsesSig g ⟨u, y, acc⟩ := by
  rintro (h3 | h3 | ⟨w, h3 | h3⟩)
  · exact h1 h3
  · exact h2 h3
  · exact (h w).1 h3
  · exact (h w).2 h3

theorem noSig_nil : NoSig g [] := by intro w; simp
theorem noSig_link (s : Nat) (w : Bool) : NoSig g (link s w) := by intro w'; simp [link]
theorem noSig_append {a b : List (Loc × Bool)} (ha : NoSig g a) (hb : NoSig g b) : NoSig g (a ++ b) := by
  intro w
  simp only [List.mem_append, not_or]
  exact ⟨⟨(ha w).1, (hb w).1⟩, (ha w).2, (hb w).2⟩
theorem noSig_fld {a : List (Loc × Bool)} {g' : Nat} (w : Bool) (hg : g' ≠ g) (ha : NoSig g a) :
    NoSig g ((.fld g', w) :: a) := by
  intro w'
  simp only [List.mem_cons, not_or]
  refine ⟨⟨fun h => ?_, (ha w').1⟩, fun h => ?_, (ha w').2⟩
  · injection h with h; injection h with h; exact hg h.symm
  · injection h with h; cases h
theorem noSig_mtx {a : List (Loc × Bool)} {g' : Nat} (w : Bool) (hg : g' ≠ g) (ha : NoSig g a) :
    NoSig g ((.mtx g', w) :: a) := by
  intro w'
  simp only [List.mem_cons, not_or]
  refine ⟨⟨fun h => ?_, (ha w').1⟩, fun h => ?_, (ha w').2⟩
  · injection h with h; cases h
  · injection h with h; injection h with h; exact hg h.symm
theorem noSig_obj (s : Nat) (w : Bool) : NoSig g [(.obj s, w)] := by intro w'; simp
theorem noSig_new (s : Nat) (w w' : Bool) : NoSig g [(.obj s, w), (.nxt s, w')] := by intro w''; simp
theorem noSig_removeLinks (l : List Nat) (s : Nat) : NoSig g (removeLinks l s) := by
  unfold removeLinks
  split
  · exact noSig_nil
  · exact noSig_link _ _
theorem noSig_insertLinks (l : List Nat) (n : Nat) (pos : Pos) : NoSig g (insertLinks l n pos) := by
  unfold insertLinks
  split
  · split
    · exact noSig_nil
    · exact noSig_link _ _
  · split
    · exact noSig_nil
    · exact noSig_link _ _

theorem ur_touch {m m' : Mem} {i : Nat} (h : m.touch t i = some m') : UR g m m' := by
  unfold Mem.touch at h
  split at h
  · cases h; exact ur_ev (by exact notUses nofun nofun (noSig_obj i false)) rfl rfl rfl
  · cases h

theorem ur_addRef {m m' : Mem} {i : Nat} (h : m.addRef t i = some m') : UR g m m' := by
  unfold Mem.addRef at h
  cases ht : m.touch t i with
  | none => rw [ht] at h; cases h
  | some m1 =>
    rw [ht] at h
    cases h
    exact (ur_touch ht).trans (ur_same rfl rfl rfl)

theorem ur_sub {m : Mem} {r : Mem × Bool} {i : Nat} (h : m.sub t i = some r) : UR g m r.1 := by
  unfold Mem.sub at h
  split at h
  · cases h; exact ur_ev (by exact notUses nofun nofun (noSig_obj i false)) rfl rfl rfl
  · cases h

theorem ur_del {m m' : Mem} {i : Nat} (h : m.del t i = some m') : UR g m m' := by
  unfold Mem.del at h
  split at h
  · cases h; exact ur_ev (by exact notUses nofun nofun (noSig_new i true true)) rfl rfl rfl
  · cases h

theorem ur_store {m m' : Mem} {i : Nat} {v : Option Nat} (hv : v ≠ some g) (h : m.store t i v = some m') : UR g m m' := by
  unfold Mem.store at h
  split at h
  · cases h
    refine ⟨⟨[_], rfl, fun e he => by cases List.mem_singleton.1 he; exact notUses nofun nofun (noSig_obj i false)⟩, fun hs s => ?_, Nat.le_refl _⟩
    show upd m.sender i v s ≠ some g
    unfold upd
    split
    · exact hv
    · exact hs s
  · cases h

theorem ur_xchg {m : Mem} {r : Mem × Option Nat} {i : Nat} (h : m.xchg t i = some r) : UR g m r.1 := by
  unfold Mem.xchg at h
  split at h
  · cases h
    refine ⟨⟨[_], rfl, fun e he => by cases List.mem_singleton.1 he; exact notUses nofun nofun (noSig_obj i false)⟩, fun hs s => ?_, Nat.le_refl _⟩
    show upd m.sender i none s ≠ some g
    unfold upd
    split
    · exact nofun
    · exact hs s
  · cases h

theorem ur_next {m : Mem} {g' : Nat} {r : Mem × Option Nat} {i : Nat} (h : m.next t g' i = some r) : UR g m r.1 := by
  unfold Mem.next at h
  split at h
  · cases h; exact ur_ev (by exact notUses nofun nofun (noSig_link i false)) rfl rfl rfl
  · cases h

theorem ur_remove {m m' : Mem} {g' i : Nat} (hg : g' ≠ g) (h : m.remove t g' i = some m') : UR g m m' := by
  unfold Mem.remove at h
  split at h
  · cases h
    exact ur_ev (by exact notUses nofun nofun (noSig_fld true hg (noSig_append (noSig_link i false) (noSig_removeLinks _ _)))) rfl rfl rfl
  · cases h

theorem ur_insert {m : Mem} {g' : Nat} {pos : Pos} (hg : g' ≠ g) : UR g m (m.insert t g' pos) := by
  refine UR.trans (m' := m.made t g' pos) ?_ (ur_ev (by exact notUses nofun nofun (noSig_fld true hg (noSig_insertLinks _ _ _))) rfl rfl rfl)
  refine ⟨⟨[_], rfl, fun e he => by cases List.mem_singleton.1 he; exact notUses nofun nofun (noSig_new _ true true)⟩, fun hs s => ?_, Nat.le_refl _⟩
  show upd m.sender m.nslots (some g') s ≠ some g
  unfold upd
  split
  · simpa using hg
  · exact hs s

theorem ur_fields {m : Mem} {g' : Nat} (hg : g' ≠ g) : UR g m (m.fields t g') :=
  ur_ev (by exact notUses nofun nofun (noSig_fld true hg noSig_nil)) rfl rfl rfl

theorem ur_fields2 {m : Mem} {g' g'' : Nat} (hg : g' ≠ g) (hg' : g'' ≠ g) :
    UR g m (m.ev t .none [(.fld g', true), (.fld g'', true)]) :=
  ur_ev (by exact notUses nofun nofun (noSig_fld true hg (noSig_fld true hg' noSig_nil))) rfl rfl rfl

theorem ur_rel (m : Mem) (k : Nat) : UR g m (m.ev t (.rel k) []) := ur_ev (by exact notUses nofun nofun noSig_nil) rfl rfl rfl
theorem ur_acq (m : Mem) (k : Nat) : UR g m (m.ev t (.acq k) []) := ur_ev (by exact notUses nofun nofun noSig_nil) rfl rfl rfl

theorem ur_lock {m : Mem} {g' : Nat} (hg : g' ≠ g) : UR g m (m.lock t g') :=
  UR.trans (m' := m.calls t g') (ur_ev (by exact notUses nofun nofun (noSig_mtx false hg noSig_nil)) rfl rfl rfl)
    (ur_ev (by exact notUses (by simpa using hg) nofun noSig_nil) rfl rfl rfl)

theorem ur_unlock {m : Mem} {g' : Nat} (hg : g' ≠ g) : UR g m (m.unlock t g') :=
  ur_ev (by exact notUses nofun (by simpa using hg) noSig_nil) rfl rfl rfl

theorem ur_finished {m : Mem} {g' g'' : Nat} (hg : g' ≠ g) : UR g m (m.finished t g' g'') :=
  (ur_unlock (m := m) hg).trans (ur_same rfl rfl rfl)

theorem ur_sigMade {m : Mem} (hg : m.nsigs ≠ g) : UR g m (m.sigMade t) :=
  ur_ev (by exact notUses nofun nofun (noSig_fld true hg (noSig_mtx true hg noSig_nil))) rfl rfl rfl

theorem ur_newSig {m : Mem} (hg : m.nsigs ≠ g) : UR g m (m.newSig t) :=
  (ur_sigMade (t := t) (m := m) hg).trans ⟨⟨[], by simp [Mem.newSig], by simp⟩, id, Nat.le_succ _⟩

theorem ur_beginMove {m : Mem} (hg : m.nsigs ≠ g) : UR g m (m.beginMove t) :=
  (ur_sigMade (t := t) (m := m) hg).trans ⟨⟨[], by simp [Mem.beginMove], by simp⟩, id, Nat.le_succ _⟩

/-- What a thread refers to. -/
structure FreeT (g : Nat) (th : Thread) : Prop where
  knows : g ∉ th.knows
  code : g ∉ th.code.sigs ∧ g ∉ th.code.locks
  calls : ∀ c ∈ th.calls, c.sig ≠ g

def Free (g : Nat) (c : Code) : Prop := g ∉ c.sigs ∧ g ∉ c.locks

theorem FreeT.to {th : Thread} {c : Code} (h : FreeT g th) (hc : Free g c) : FreeT g { th with code := c } :=
  ⟨h.knows, hc, h.calls⟩

theorem free_ite {p : Prop} [Decidable p] {a b : Code} (ha : Free g a) (hb : Free g b) : Free g (if p then a else b) := by
  split <;> assumption

theorem free_then {r : Mem × Bool} {a b : Code} (ha : Free g a) (hb : Free g b) : Free g (thenDel r a b) := by
  unfold thenDel
  split <;> assumption

theorem free_cleaned {k : K} {o : Option Nat} (h : g ∉ k.locks) : Free g (k.cleaned o) := by
  cases k <;> simpa [K.cleaned, Free, Code.sigs, Code.locks, K.locks] using h

/-- A step that does not use `g`. -/
def Off (st : State) (t g : Nat) (m : Mem) (o : Out) : Prop :=
  ∀ st', o = .ok st' → UR g m st'.mem ∧ FreeT g (st'.threads t) ∧ (∀ u, u ≠ t → st'.threads u = st.threads u) ∧
    ∀ k, g ∉ st'.boxS k

theorem off_off {m : Mem} : Off st t g m .off := by intro _ h; cases h
theorem off_ub {m : Mem} : Off st t g m .ub := by intro _ h; cases h
theorem off_term {m : Mem} : Off st t g m .term := by intro _ h; cases h

theorem off_go {m m' : Mem} {th : Thread} (hb : ∀ k, g ∉ st.boxS k) (h : UR g m m') (ht : FreeT g th) :
    Off st t g m (st.go t m' th) := by
  intro st' hs
  cases hs
  exact ⟨h, by show FreeT g (upd st.threads t th t); rw [upd_same]; exact ht, fun u hu => upd_other _ _ hu, hb⟩

theorem off_first {m m' : Mem} {o : Out} (h : UR g m m') (h' : Off st t g m' o) : Off st t g m o :=
  fun st' hs => ⟨h.trans (h' st' hs).1, (h' st' hs).2⟩

theorem off_free {m m' : Mem} {g' : Nat} {k : Out} (h : Off st t g m k) : Off st t g m (whenFree m' g' k) := by
  unfold whenFree
  split
  · exact h
  · exact off_off

theorem off_by {α : Type} {m : Mem} {x : Option α} {k : α → Out} {f : α → Mem}
    (h : ∀ a, x = some a → UR g m (f a)) (h' : ∀ a, x = some a → Off st t g (f a) (k a)) :
    Off st t g m (orUb x k) := by
  cases hx : x with
  | none => exact off_ub
  | some a => exact off_first (h a hx) (h' a hx)

theorem off_touch {m : Mem} {i : Nat} {k : Mem → Out} (h : ∀ a, Off st t g a (k a)) :
    Off st t g m (orUb (m.touch t i) k) := off_by (f := id) (fun _ => ur_touch) fun a _ => h a
theorem off_addRef {m : Mem} {i : Nat} {k : Mem → Out} (h : ∀ a, Off st t g a (k a)) :
    Off st t g m (orUb (m.addRef t i) k) := off_by (f := id) (fun _ => ur_addRef) fun a _ => h a
theorem off_sub {m : Mem} {i : Nat} {k : Mem × Bool → Out} (h : ∀ a, Off st t g a.1 (k a)) :
    Off st t g m (orUb (m.sub t i) k) := off_by (f := (·.1)) (fun _ => ur_sub) fun a _ => h a
theorem off_del {m : Mem} {i : Nat} {k : Mem → Out} (h : ∀ a, Off st t g a (k a)) :
    Off st t g m (orUb (m.del t i) k) := off_by (f := id) (fun _ => ur_del) fun a _ => h a
theorem off_store {m : Mem} {i : Nat} {v : Option Nat} {k : Mem → Out} (hv : v ≠ some g) (h : ∀ a, Off st t g a (k a)) :
    Off st t g m (orUb (m.store t i v) k) := off_by (f := id) (fun _ => ur_store hv) fun a _ => h a
theorem off_next {m : Mem} {g' i : Nat} {k : Mem × Option Nat → Out} (h : ∀ a, Off st t g a.1 (k a)) :
    Off st t g m (orUb (m.next t g' i) k) := off_by (f := (·.1)) (fun _ => ur_next) fun a _ => h a
theorem off_remove {m : Mem} {g' i : Nat} {k : Mem → Out} (hg : g' ≠ g) (h : ∀ a, Off st t g a (k a)) :
    Off st t g m (orUb (m.remove t g' i) k) := off_by (f := id) (fun _ => ur_remove hg) fun a _ => h a

macro "off" hb:term "," ht:term "," hg:term : tactic => `(tactic|
  repeat' (first
    | exact off_off
    | exact off_ub
    | exact off_term
    | (refine off_go $hb (ur_refl _) (FreeT.to $ht ?_))
    | (refine off_go $hb (ur_same rfl rfl rfl) (FreeT.to $ht ?_))
    | (refine off_go $hb (ur_fields $hg) (FreeT.to $ht ?_))
    | (refine off_go $hb ((ur_fields $hg).trans (ur_same rfl rfl rfl)) (FreeT.to $ht ?_))
    | (refine off_go $hb (ur_insert $hg) (FreeT.to $ht ?_))
    | (refine off_touch fun _ => ?_)
    | (refine off_addRef fun _ => ?_)
    | (refine off_sub fun _ => ?_)
    | (refine off_del fun _ => ?_)
    | (refine off_store (by simp) fun _ => ?_)
    | (refine off_next fun _ => ?_)
    | (refine off_remove $hg fun _ => ?_)
    | (apply free_ite)
    | (apply free_then)
    | split))

theorem not_single {g' : Nat} (hg : g' ≠ g) : g ∉ [g'] := by simpa using Ne.symm hg

/-- The signals of a code point are others than `g`. -/
macro "names" hg:term : tactic => `(tactic| first
  | exact ⟨not_single $hg, not_single $hg⟩
  | exact ⟨not_single $hg, List.not_mem_nil⟩
  | exact ⟨List.not_mem_nil, not_single $hg⟩
  | exact ⟨List.not_mem_nil, List.not_mem_nil⟩
  | exact not_single $hg)

theorem k_ne {k : K} {g' : Nat} (hw : k.sig = g') (hk : g ∉ k.locks) : g' ≠ g := by
  rintro rfl
  subst hw
  exact hk (K.locks_sig k)

theorem stepCode_off {b : Bool} (h : StateOk st) (hu : Unused st g) : Off st t g st.mem (stepCode st t (st.threads t) b) := by
  have ht : FreeT g (st.threads t) := ⟨hu.knows t, hu.code t, hu.calls t⟩
  have hb := hu.boxes
  have hf := ht.code
  have hw := (h.threads t).wf
  cases hc : (st.threads t).code with
  | idle | rel s | del s =>
    have hg : g + 1 ≠ g := by omega
    simp only [stepCode, hc]
    off hb, ht, hg
    all_goals exact ⟨by code, by code⟩
  | emRef1 g' _ _ | emRef2 g' _ _ | emHead g' _ _ | emChk g' _ _ | emNRef g' _ _ _ | emRel g' _ _ _ | emDel g' _ _ _
  | emFin g' _ | emFinDel g' _ | disLoop _ g' _ | disStore _ g' | disRel _ g' | disDel _ g' | allLoop g' _ | allRel g' _ _
  | allDel g' _ _ | numLoop g' _ =>
    rw [hc] at hf
    have hg : g' ≠ g := by rintro rfl; simp [Code.sigs, Code.locks] at hf
    simp only [stepCode, hc]
    off hb, ht, hg
    all_goals names hg
  | emLock g' | allLock g' | numLock g' | conLock g' _ | disLock _ g' | mvLock2 g' | emEnd g' =>
    rw [hc] at hf
    have hg : g' ≠ g := by rintro rfl; simp [Code.sigs, Code.locks] at hf
    simp only [stepCode, hc]
    refine off_free (off_first (ur_lock (t := t) hg) ?_)
    off hb, ht, hg
    all_goals first
      | names hg
      | (apply free_cleaned; names hg)
  | emAdv g' last c =>
    rw [hc] at hf
    have hg : g' ≠ g := by rintro rfl; simp [Code.sigs, Code.locks] at hf
    simp only [stepCode, hc]
    split
    · off hb, ht, hg
      all_goals names hg
    · refine off_free (off_first (ur_lock (t := t) hg) ?_)
      off hb, ht, hg
      all_goals names hg
  | emUnl g' _ _ | emNUnl g' _ _ _ | unl g' | disUnl _ g' =>
    rw [hc] at hf
    have hg : g' ≠ g := by rintro rfl; simp [Code.sigs, Code.locks] at hf
    simp only [stepCode, hc]
    refine off_go hb (ur_unlock hg) (ht.to ?_)
    names hg
  | unl2 g' g'' =>
    rw [hc] at hf
    have hg : g' ≠ g := by rintro rfl; simp [Code.sigs, Code.locks] at hf
    have hg' : g'' ≠ g := by rintro rfl; simp [Code.sigs, Code.locks] at hf
    simp only [stepCode, hc]
    refine off_go hb (ur_unlock hg) (ht.to ?_)
    names hg'
  | emCall g' _ c =>
    rw [hc] at hf
    have hg : g' ≠ g := by rintro rfl; simp [Code.sigs, Code.locks] at hf
    simp only [stepCode, hc]
    refine off_touch fun _ => off_go hb (ur_refl _) ⟨ht.knows, ⟨by code, by code⟩, fun c hc => ?_⟩
    rcases List.mem_cons.1 hc with rfl | hc
    · exact hg
    · exact ht.calls c hc
  | conRef g' s =>
    rw [hc] at hf
    have hg : g' ≠ g := by rintro rfl; simp [Code.sigs, Code.locks] at hf
    simp only [stepCode, hc]
    refine off_addRef fun _ => off_go hb (ur_refl _) ⟨ht.knows, ?_, ht.calls⟩
    names hg
  | cl g' iter k | clRel g' _ _ k | clDel g' _ _ k =>
    rw [hc] at hf hw
    have hk : g ∉ k.locks := hf.1
    have hg : g' ≠ g := k_ne hw hk
    simp only [stepCode, hc]
    off hb, ht, hg
    all_goals first
      | exact ⟨hk, hk⟩
      | exact free_cleaned hk
  | rb g' iter k =>
    rw [hc] at hf hw
    have hk : g ∉ k.locks := hf.1
    have hg : g' ≠ g := k_ne hw hk
    simp only [stepCode, hc]
    cases iter with
    | none =>
      cases k with
      | sw1 a a' =>
        have ha : a ≠ g := by rintro rfl; simp [K.locks] at hk
        have ha' : a' ≠ g := by rintro rfl; simp [K.locks] at hk
        dsimp only
        refine off_go hb (ur_fields ha') (ht.to (free_ite ?_ (free_cleaned hk)))
        exact ⟨hk, hk⟩
      | em a | mv a | sw2 a a' =>
        dsimp only
        refine off_go hb (ur_refl _) (ht.to ?_)
        exact ⟨by code, hk⟩
    | some i =>
      refine off_store (by simpa using hg) fun _ => off_next fun _ => off_go hb (ur_refl _) (ht.to ?_)
      exact ⟨hk, hk⟩
  | swLock g' g'' =>
    rw [hc] at hf
    have hg : g' ≠ g := by rintro rfl; simp [Code.sigs, Code.locks] at hf
    have hg' : g'' ≠ g := by rintro rfl; simp [Code.sigs, Code.locks] at hf
    have hk : g ∉ (K.sw1 g' g'').locks := by simp [K.locks, Ne.symm hg, Ne.symm hg']
    simp only [stepCode, hc]
    split
    · exact off_go hb (ur_refl _) (ht.to ⟨by code, by code⟩)
    · refine off_free (off_free (off_first ((ur_lock (t := t) hg).trans ((ur_lock (t := t) hg').trans (ur_fields2 (t := t) hg hg'))) ?_))
      split
      · exact off_term
      · exact off_go hb (ur_same rfl rfl rfl) (ht.to (free_ite ⟨hk, hk⟩ (free_cleaned hk)))
  | mvLock g' g'' =>
    rw [hc] at hf
    have hg : g' ≠ g := by rintro rfl; simp [Code.sigs, Code.locks] at hf
    have hg' : g'' ≠ g := by rintro rfl; simp [Code.sigs, Code.locks] at hf
    simp only [stepCode, hc]
    refine off_free (off_first ((ur_lock (t := t) hg).trans (ur_fields2 (t := t) hg hg')) ?_)
    split
    · exact off_term
    · refine off_go hb (ur_same rfl rfl rfl) (ht.to ?_)
      simp [Free, Code.sigs, Code.locks, Ne.symm hg, Ne.symm hg']
  | mvUnl g' g'' =>
    rw [hc] at hf
    have hg : g' ≠ g := by rintro rfl; simp [Code.sigs, Code.locks] at hf
    have hg' : g'' ≠ g := by rintro rfl; simp [Code.sigs, Code.locks] at hf
    simp only [stepCode, hc]
    refine off_go hb (ur_finished hg) ⟨?_, ?_, ht.calls⟩
    · simpa using ⟨Ne.symm hg', ht.knows⟩
    · simp [Code.sigs, Code.locks, Ne.symm hg']

theorem off_set {m m' : Mem} {th : Thread} {x y : Nat → List Nat} (h : UR g m m') (ht : FreeT g th)
    (hb : ∀ k, g ∉ y k) : Off st t g m (.ok ⟨m', upd st.threads t th, x, y⟩) := by
  intro st' hs
  cases hs
  exact ⟨h, by show FreeT g (upd st.threads t th t); rw [upd_same]; exact ht, fun u hu => upd_other _ _ hu, hb⟩

theorem stepUser_off {op : Op} (hu : Unused st g) :
    Off st t g st.mem (stepUser st t (st.threads t) op) := by
  have ht : FreeT g (st.threads t) := ⟨hu.knows t, hu.code t, hu.calls t⟩
  have hb := hu.boxes
  have hn : ∀ {g'}, g' ∈ (st.threads t).knows → g' ≠ g := fun h e => ht.knows (e ▸ h)
  have hm : st.mem.nsigs ≠ g := Nat.ne_of_gt hu.made
  cases op with
  | cont b => exact off_off
  | newSig =>
    exact off_go hb (ur_newSig hm) ⟨by simpa using ⟨Ne.symm hm, ht.knows⟩, ht.code, ht.calls⟩
  | connect g' _ | emit g' | discAll g' | numSlots g' =>
    simp only [stepUser]
    split
    · rename_i hk
      refine off_go hb (ur_refl _) (ht.to ?_)
      names (hn hk)
    · exact off_off
  | swap g' g'' =>
    simp only [stepUser]
    split
    · rename_i hk
      refine off_go hb (ur_refl _) (ht.to ⟨?_, List.not_mem_nil⟩)
      simpa [Code.sigs] using ⟨Ne.symm (hn hk.1), Ne.symm (hn hk.2)⟩
    · exact off_off
  | moveSig g' =>
    simp only [stepUser]
    split
    · rename_i hk
      exact off_go hb (ur_beginMove hm) (ht.to ⟨not_single (hn hk), not_single hm⟩)
    · exact off_off
  | copy i =>
    simp only [stepUser]
    split
    · exact off_off
    · exact off_addRef fun _ => off_go hb (ur_refl _) ⟨ht.knows, ht.code, ht.calls⟩
  | drop i =>
    simp only [stepUser]
    split
    · exact off_off
    · exact off_go hb (ur_refl _) ⟨ht.knows, ⟨List.not_mem_nil, List.not_mem_nil⟩, ht.calls⟩
  | disconnect i =>
    simp only [stepUser]
    split
    · exact off_off
    · rename_i s hs
      refine off_by (f := (·.1)) (fun _ => ur_xchg) fun r hr => off_go hb (ur_refl _) ⟨ht.knows, ?_, ht.calls⟩
      have h2 : r.2 = st.mem.sender s := by
        unfold Mem.xchg at hr
        split at hr
        · cases hr; rfl
        · cases hr
      rw [h2]
      cases hx : st.mem.sender s with
      | none => exact ⟨List.not_mem_nil, List.not_mem_nil⟩
      | some g' => exact ⟨not_single fun e => hu.sender s (e ▸ hx), List.not_mem_nil⟩
  | touch i =>
    simp only [stepUser]
    split
    · exact off_off
    · exact off_touch fun _ => off_go hb (ur_refl _) ht
  | current =>
    simp only [stepUser]
    split
    · exact off_off
    · exact off_addRef fun _ => off_go hb (ur_refl _) ⟨ht.knows, ht.code, ht.calls⟩
  | give i k =>
    simp only [stepUser]
    split
    · exact off_off
    · exact off_set ((ur_rel (t := t) _ k).trans (ur_same rfl rfl rfl)) ⟨ht.knows, ht.code, ht.calls⟩ hb
  | take k i =>
    simp only [stepUser]
    split
    · exact off_off
    · exact off_set ((ur_acq (t := t) _ k).trans (ur_same rfl rfl rfl)) ⟨ht.knows, ht.code, ht.calls⟩ hb
  | publish g' k =>
    simp only [stepUser]
    split
    · rename_i hk
      intro st' hs
      cases hs
      refine ⟨ur_rel _ _, ht, fun _ _ => rfl, fun k' => ?_⟩
      show g ∉ upd st.boxS k (g' :: st.boxS k) k'
      unfold upd
      split
      · simpa using ⟨Ne.symm (hn hk), hb k⟩
      · exact hb k'
    · exact off_off
  | learn k i =>
    simp only [stepUser]
    split
    · exact off_off
    · rename_i g' hg
      have : g' ≠ g := fun e => hb k (e ▸ List.mem_of_getElem? hg)
      exact off_go hb (ur_acq _ _) ⟨by simpa using ⟨Ne.symm this, ht.knows⟩, ht.code, ht.calls⟩
  | ret =>
    simp only [stepUser]
    split
    · exact off_off
    · rename_i c cs hcs
      have h1 := ht.calls
      rw [hcs] at h1
      refine off_go hb (ur_refl _) ⟨ht.knows, ?_, fun x hx => h1 x (List.mem_cons_of_mem _ hx)⟩
      exact ⟨not_single (h1 c (List.mem_cons_self ..)), List.not_mem_nil⟩
  | throw =>
    simp only [stepUser]
    split
    · exact off_off
    · rename_i c cs hcs
      have h1 := ht.calls
      rw [hcs] at h1
      refine off_go hb (ur_refl _) ⟨ht.knows, ?_, fun x hx => h1 x (List.mem_cons_of_mem _ hx)⟩
      exact ⟨not_single (h1 c (List.mem_cons_self ..)), List.not_mem_nil⟩

theorem step_off {op : Op} (h : StateOk st) (hu : Unused st g) : Off st t g st.mem (step st t op) := by
  unfold step
  dsimp only
  split
  · exact stepCode_off h hu
  · split
    · exact stepUser_off hu
    · exact off_off

theorem step_unused {op : Op} {st' : State} (h : StateOk st) (hu : Unused st g) (hs : step st t op = .ok st') :
    Unused st' g ∧ UR g st.mem st'.mem := by
  obtain ⟨h1, h2, h3, h4⟩ := step_off h hu st' hs
  have h5 : ∀ u, FreeT g (st'.threads u) := by
    intro u
    by_cases hx : u = t
    · rw [hx]; exact h2
    · rw [h3 u hx]; exact ⟨hu.knows u, hu.code u, hu.calls u⟩
  exact ⟨⟨fun u => (h5 u).knows, h4, fun u => (h5 u).code, fun u => (h5 u).calls, h1.sender hu.sender,
    Nat.lt_of_lt_of_le hu.made h1.nsigs⟩, h1⟩

theorem run_unused : ∀ (l : List (Nat × Op)) {st st' : State}, StateOk st → Unused st g → run st l = .ok st' →
    StateOk st' ∧ Unused st' g ∧ UR g st.mem st'.mem
  | [], st, st', h, hg, hr => by cases hr; exact ⟨h, hg, ur_refl _⟩
  | (u, op) :: l, st, st', h, hg, hr => by
    simp only [run] at hr
    split at hr
    · rename_i st1 hs
      have h1 := step_ok (t := u) (op := op) h
      rw [hs] at h1
      obtain ⟨h2, h3⟩ := step_unused h hg hs
      obtain ⟨h4, h5, h6⟩ := run_unused l h1.1 h2 hr
      exact ⟨h4, h5, h3.trans h6⟩
    · rename_i o hne
      exact absurd hr (hne _)

end Verif.Races
