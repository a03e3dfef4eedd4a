import Verif.FileView.Model

/-! C65: resource discipline of `file_view`. -/

namespace Verif.FileView

/-! ### Specification: the operating system replays the trace -/

/-- Open descriptors and mappings. -/
structure Kernel where
  fds : List Int
  maps : List (Nat × Nat)
  deriving DecidableEq

/-- Effect of one event; `none` when the program closes or unmaps something it does not hold. -/
def Kernel.ev (k : Kernel) : Ev → Option Kernel
  | .opened fd => some { k with fds := fd :: k.fds }
  | .closed fd => if fd ∈ k.fds then some { k with fds := k.fds.erase fd } else none
  | .mapped a n => some { k with maps := (a, n) :: k.maps }
  | .unmapped a n => if (a, n) ∈ k.maps then some { k with maps := k.maps.erase (a, n) } else none

def Kernel.replay : Kernel → List Ev → Option Kernel
  | k, [] => some k
  | k, e :: es => (k.ev e).bind (Kernel.replay · es)

/-- What the constructor has to do on unix: the first failing call decides. -/
def unixSpec (o : Unix) : Result :=
  if o.open_.ret = -1 then .thrown o.open_.errno
  else if o.fstat.ret = -1 then .thrown o.fstat.errno
  else if o.stSize = 0 then .view 0 0
  else if o.mmap.ret = mapFailed then .thrown o.mmap.errno
  else .view o.mmap.ret.toNat o.stSize

/-- What the constructor has to do on Windows. -/
def winSpec (o : Win) : Result :=
  if o.create1.ret = -1 ∧ o.create2.ret = -1 then .thrown o.create2.errno
  else if o.getSize.ret = 0 then .thrown o.getSize.errno
  else if o.size = 0 then .view 0 0
  else if o.mapping.ret = 0 then .thrown o.mapping.errno
  else if o.mapView.ret = 0 then .thrown o.mapView.errno
  else .view o.mapView.ret.toNat o.size

/-- What a correct constructor leaves behind: nothing but the mapping of a non-empty view. -/
def After (k k' : Kernel) : Result → Prop
  | .thrown _ => k' = k
  | .view a n => k' = if n = 0 then k else { k with maps := (a, n) :: k.maps }

/-! ### Facts the operating system guarantees -/

/-- The address of a mapping is a non-null address. -/
def Unix.Sane (o : Unix) : Prop := 0 < o.mmap.ret

instance (o : Unix) : Decidable o.Sane := by unfold Unix.Sane; infer_instance

/-- `mmap` does not fail when it is reached. -/
def Unix.MapOk (o : Unix) : Prop :=
  o.open_.ret = -1 ∨ o.fstat.ret = -1 ∨ o.stSize = 0 ∨ o.mmap.ret ≠ mapFailed

instance (o : Unix) : Decidable o.MapOk := by unfold Unix.MapOk; infer_instance

/-- `GetFileSizeEx` does not fail when it is reached. -/
def Win.SizeOk (o : Win) : Prop := (o.create1.ret = -1 ∧ o.create2.ret = -1) ∨ o.getSize.ret ≠ 0

instance (o : Win) : Decidable o.SizeOk := by unfold Win.SizeOk; infer_instance

theorem replay_append (k : Kernel) (a b : List Ev) :
    k.replay (a ++ b) = (k.replay a).bind (Kernel.replay · b) := by
  induction a generalizing k with
  | nil => rfl
  | cons e es ih =>
    simp only [List.cons_append, Kernel.replay]
    cases k.ev e with
    | none => rfl
    | some k' => exact ih k'

/-- C65, unix: whatever the system calls return, unless `mmap` fails, the constructor throws
the error of the first failing call or gives exactly the mapping of the file, closes the
descriptor it opened exactly once and holds nothing else. -/
theorem C65_unix_partial (o : Unix) (hs : o.Sane) (hm : o.MapOk) (k : Kernel) :
    (unixCtor o).2 = unixSpec o ∧ ∃ k', k.replay (unixCtor o).1 = some k' ∧
      After k k' (unixCtor o).2 := by
  obtain ⟨⟨fd, e1⟩, ⟨fs, e2⟩, sz, ⟨mp, e3⟩⟩ := o
  simp only [Unix.Sane, Unix.MapOk] at hs hm
  simp only [unixCtor, unixSpec, withFd, evOpen, evMap]
  by_cases h1 : fd = -1
  · simp [h1, Kernel.replay, After]
  · by_cases h2 : fs = -1
    · simp [h1, h2, Kernel.replay, Kernel.ev, After]
    · by_cases h3 : sz = 0
      · simp [h1, h2, h3, Kernel.replay, Kernel.ev, After]
      · have h4 : mp ≠ mapFailed := by
          rcases hm with h | h | h | h <;> first | exact absurd h h1 | exact absurd h h2 | exact absurd h h3 | exact h
        have h5 : mp ≠ 0 := by omega
        simp [h1, h2, h3, h4, h5, Kernel.replay, Kernel.ev, After]

example : let o : Unix := ⟨⟨3, 0⟩, ⟨0, 0⟩, 100, ⟨4096, 0⟩⟩
    o.Sane ∧ o.MapOk ∧ unixCtor o = ([.opened 3, .mapped 4096 100, .closed 3], .view 4096 100) := by
  decide

/-- C65, unix, without any assumption on `mmap`: the descriptor is closed exactly once if it
was opened and on every way out, and an error of `open` or `fstat` is thrown. -/
theorem C65_unix_descriptor (o : Unix) (k : Kernel) :
    (∃ k', k.replay (unixCtor o).1 = some k' ∧ k'.fds = k.fds) ∧
    (unixCtor o).1.count (.closed o.open_.ret) = (if o.open_.ret = -1 then 0 else 1) ∧
    (o.open_.ret = -1 → (unixCtor o).2 = .thrown o.open_.errno) ∧
    (o.open_.ret ≠ -1 → o.fstat.ret = -1 → (unixCtor o).2 = .thrown o.fstat.errno) := by
  obtain ⟨⟨fd, e1⟩, ⟨fs, e2⟩, sz, ⟨mp, e3⟩⟩ := o
  simp only [unixCtor, withFd, evOpen, evMap]
  by_cases h1 : fd = -1
  · simp [h1, Kernel.replay]
  · by_cases h2 : fs = -1
    · simp [h1, h2, Kernel.replay, Kernel.ev, List.count_cons]
    · by_cases h3 : sz = 0
      · simp [h1, h2, h3, Kernel.replay, Kernel.ev, List.count_cons]
      · by_cases h5 : mp = 0
        · simp [h1, h2, h3, h5, Kernel.replay, Kernel.ev, List.count_cons, mapFailed]
        · generalize hx : (mapFailed : Int) = x
          by_cases h4 : mp = x
          · subst h4
            simp [h1, h2, h3, h5, Kernel.replay, Kernel.ev, List.count_cons]
          · simp [h1, h2, h3, h4, h5, Kernel.replay, Kernel.ev, List.count_cons]

example : (unixCtor ⟨⟨3, 0⟩, ⟨-1, 5⟩, 0, ⟨0, 0⟩⟩).2 = .thrown 5 := by decide

/-- C65, unix, violated: a failing `mmap` is not detected; the view refers to memory that is
not mapped, and the destructor unmaps what was never mapped. -/
theorem C65_mmap_violated : ∃ o : Unix, o.Sane ∧ unixSpec o = .thrown o.mmap.errno ∧
    unixCtor o = ([.opened 3, .closed 3], .view mapFailed 100) ∧
    Kernel.replay ⟨[], []⟩ ((unixCtor o).1 ++ unixDtor mapFailed 100) = none :=
  ⟨⟨⟨3, 0⟩, ⟨0, 0⟩, 100, ⟨mapFailed, 12⟩⟩, by decide +kernel, by decide +kernel, by decide +kernel,
    by decide +kernel⟩

/-- C65, unix, violated for every failing `mmap`. -/
theorem C65_mmap_never_reported (o : Unix) (h : ¬ o.MapOk) :
    (unixCtor o).2 = .view mapFailed o.stSize ∧ ∀ e, (unixCtor o).2 ≠ .thrown e := by
  obtain ⟨⟨fd, e1⟩, ⟨fs, e2⟩, sz, ⟨mp, e3⟩⟩ := o
  simp only [Unix.MapOk, not_or, Classical.not_not] at h
  obtain ⟨h1, h2, h3, h4⟩ := h
  simp [unixCtor, withFd, h1, h2, h3, h4, mapFailed]

example : ¬ (⟨⟨3, 0⟩, ⟨0, 0⟩, 100, ⟨mapFailed, 12⟩⟩ : Unix).MapOk := by decide +kernel

/-- C65, Windows: the same, unless `GetFileSizeEx` fails. -/
theorem C65_win_partial (o : Win) (hs : 0 ≤ o.mapView.ret) (hz : o.SizeOk) (k : Kernel) :
    (winCtor o).2 = winSpec o ∧ ∃ k', k.replay (winCtor o).1 = some k' ∧
      After k k' (winCtor o).2 := by
  obtain ⟨⟨c1, e1⟩, ⟨c2, e2⟩, ⟨gs, e3⟩, sz, ⟨mh, e4⟩, ⟨mv, e5⟩⟩ := o
  simp only [Win.SizeOk] at hs hz
  simp only [winCtor, winSpec, winRest, withHandle, evHandle]
  by_cases h1 : c1 = -1
  · by_cases h2 : c2 = -1
    · simp [h1, h2, Kernel.replay, After]
    · have h3 : gs ≠ 0 := by rcases hz with h | h; exact absurd h.2 h2; exact h
      by_cases h4 : sz = 0
      · simp [h1, h2, h3, h4, Kernel.replay, Kernel.ev, After]
      · by_cases h5 : mh = 0
        · simp [h1, h2, h3, h4, h5, Kernel.replay, Kernel.ev, After]
        · by_cases h6 : mv = 0
          · simp [h1, h2, h3, h4, h5, h6, Kernel.replay, Kernel.ev, After]
          · simp [h1, h2, h3, h4, h5, h6, Kernel.replay, Kernel.ev, After]
  · have h3 : gs ≠ 0 := by rcases hz with h | h; exact absurd h.1 h1; exact h
    by_cases h4 : sz = 0
    · simp [h1, h3, h4, Kernel.replay, Kernel.ev, After]
    · by_cases h5 : mh = 0
      · simp [h1, h3, h4, h5, Kernel.replay, Kernel.ev, After]
      · by_cases h6 : mv = 0
        · simp [h1, h3, h4, h5, h6, Kernel.replay, Kernel.ev, After]
        · simp [h1, h3, h4, h5, h6, Kernel.replay, Kernel.ev, After]

example : let o : Win := ⟨⟨-1, 32⟩, ⟨7, 0⟩, ⟨1, 0⟩, 100, ⟨8, 0⟩, ⟨65536, 0⟩⟩
    o.SizeOk ∧ winCtor o =
      ([.opened 7, .opened 8, .mapped 65536 100, .closed 8, .closed 7], .view 65536 100) := by decide

/-- C65, Windows, without any assumption: nothing is leaked and nothing is closed twice. -/
theorem C65_win_handles (o : Win) (k : Kernel) :
    ∃ k', k.replay (winCtor o).1 = some k' ∧ k'.fds = k.fds := by
  obtain ⟨⟨c1, e1⟩, ⟨c2, e2⟩, ⟨gs, e3⟩, sz, ⟨mh, e4⟩, ⟨mv, e5⟩⟩ := o
  simp only [winCtor, winRest, withHandle, evHandle]
  by_cases h1 : c1 = -1 <;> by_cases h2 : c2 = -1 <;> by_cases h3 : gs = 0 <;> by_cases h4 : sz = 0 <;>
    by_cases h5 : mh = 0 <;> by_cases h6 : mv = 0 <;>
    simp [h1, h2, h3, h4, h5, h6, Kernel.replay, Kernel.ev]

/-- C65, Windows, violated: when the size cannot be read the view is silently empty. -/
theorem C65_win_size_violated (o : Win) (h : ¬ o.SizeOk) :
    (winCtor o).2 = .view 0 0 ∧ winSpec o = .thrown o.getSize.errno := by
  obtain ⟨⟨c1, e1⟩, ⟨c2, e2⟩, ⟨gs, e3⟩, sz, ⟨mh, e4⟩, ⟨mv, e5⟩⟩ := o
  simp only [Win.SizeOk, not_or, Classical.not_not] at h
  obtain ⟨h1, h2⟩ := h
  subst h2
  have h3 : ¬ (c1 = -1 ∧ c2 = -1) := h1
  by_cases h4 : c1 = -1
  · have h5 : c2 ≠ -1 := fun h => h3 ⟨h4, h⟩
    simp [winCtor, winSpec, winRest, withHandle, h4, h5]
  · simp [winCtor, winSpec, winRest, withHandle, h4]

example : ¬ (⟨⟨7, 0⟩, ⟨-1, 0⟩, ⟨0, 6⟩, 0, ⟨0, 0⟩, ⟨0, 0⟩⟩ : Win).SizeOk := by decide

/-! ### Histories -/

/-- An operation a history without copies may contain: constructors whose calls behave as the
theorems above ask. -/
def Fine : Op → Prop
  | .ctor r => (∃ o : Unix, o.Sane ∧ o.MapOk ∧ r = unixCtor o)
  | .dtor _ => True
  | .copy _ => False

def FineW : Op → Prop
  | .ctor r => (∃ o : Win, 0 ≤ o.mapView.ret ∧ o.SizeOk ∧ r = winCtor o)
  | .dtor _ => True
  | .copy _ => False

/-- The mappings the live objects need. -/
def needed (objs : List (Option (Nat × Nat))) : List (Nat × Nat) :=
  objs.filterMap fun o => o.bind fun p => if p.2 = 0 then none else some p

theorem needed_append (a b : List (Option (Nat × Nat))) : needed (a ++ b) = needed a ++ needed b := by
  simp [needed]

theorem split_at {α : Type} {l : List α} {i : Nat} {x : α} (h : l[i]? = some x) :
    ∃ a b, l = a ++ x :: b ∧ ∀ y, l.set i y = a ++ y :: b := by
  induction l generalizing i with
  | nil => simp at h
  | cons z l ih =>
    cases i with
    | zero => simp at h; subst h; exact ⟨[], l, rfl, fun _ => rfl⟩
    | succ i =>
      simp at h
      obtain ⟨a, b, rfl, h2⟩ := ih h
      exact ⟨z :: a, b, rfl, fun y => by simp [h2]⟩

/-- The part of the history theorem that is common to both platforms. -/
theorem step_holds {fine : Op → Prop} {d : Nat → Nat → List Ev}
    (hc : ∀ r, fine (.ctor r) → ∀ k : Kernel, ∃ k', k.replay r.1 = some k' ∧ After k k' r.2)
    (hd : ∀ a n, d a n = if n ≠ 0 then [.unmapped a n] else [])
    (hcopy : ∀ i, ¬ fine (.copy i))
    (w : World) (op : Op) (h : fine op) (k : Kernel)
    (hk : Kernel.replay ⟨[], []⟩ w.trace = some k) (hf : k.fds = []) (hm : k.maps.Perm (needed w.objs)) :
    ∃ k', Kernel.replay ⟨[], []⟩ (step d w op).trace = some k' ∧ k'.fds = [] ∧
      k'.maps.Perm (needed (step d w op).objs) := by
  cases op with
  | copy i => exact absurd h (hcopy i)
  | ctor r =>
    obtain ⟨tr, res⟩ := r
    obtain ⟨k', h1, h2⟩ := hc _ h k
    refine ⟨k', ?_, ?_⟩
    · cases res <;> simp only [step] <;> rw [replay_append, hk] <;> exact h1
    · cases res with
      | thrown e => simp only [After] at h2; subst h2; exact ⟨hf, hm⟩
      | view a n =>
        simp only [After] at h2
        subst h2
        by_cases hn : n = 0
        · simp only [hn, if_true, step]
          rw [needed_append]
          refine ⟨hf, ?_⟩
          simpa [needed] using hm
        · simp only [hn, if_false, step]
          rw [needed_append]
          refine ⟨hf, ?_⟩
          have : needed [some (a, n)] = [(a, n)] := by simp [needed, hn]
          rw [this]
          exact (List.Perm.cons _ hm).trans (List.perm_append_comm (l₁ := [(a, n)]) )
  | dtor i =>
    simp only [step]
    cases ho : w.objs[i]? with
    | none => exact ⟨k, hk, hf, hm⟩
    | some o =>
      cases o with
      | none => exact ⟨k, hk, hf, hm⟩
      | some p =>
        obtain ⟨a, n⟩ := p
        obtain ⟨l1, l2, e1, e2⟩ := split_at ho
        simp only [hd, e2]
        have hmid : needed (l1 ++ none :: l2) = needed l1 ++ needed l2 := by
          simp [needed]
        by_cases hn : n = 0
        · refine ⟨k, by simp [hn, hk], hf, ?_⟩
          rw [hmid]
          rw [e1] at hm
          simpa [needed, hn] using hm
        · have hold : needed w.objs = needed l1 ++ (a, n) :: needed l2 := by
            rw [e1]; simp [needed, hn]
          have hmem : (a, n) ∈ k.maps := by
            rw [hm.mem_iff, hold]; simp
          refine ⟨{ k with maps := k.maps.erase (a, n) }, ?_, hf, ?_⟩
          · rw [replay_append, hk]
            simp [hn, Kernel.replay, Kernel.ev, hmem]
          · rw [hmid]
            rw [hold] at hm
            have h3 : k.maps.Perm ((a, n) :: (needed l1 ++ needed l2)) :=
              hm.trans List.perm_middle
            have h4 := h3.erase (a, n)
            simpa using h4

theorem run_holds {fine : Op → Prop} {d : Nat → Nat → List Ev}
    (hc : ∀ r, fine (.ctor r) → ∀ k : Kernel, ∃ k', k.replay r.1 = some k' ∧ After k k' r.2)
    (hd : ∀ a n, d a n = if n ≠ 0 then [.unmapped a n] else [])
    (hcopy : ∀ i, ¬ fine (.copy i)) (ops : List Op) (h : ∀ op ∈ ops, fine op) :
    ∃ k, Kernel.replay ⟨[], []⟩ (run d ops).trace = some k ∧ k.fds = [] ∧
      k.maps.Perm (needed (run d ops).objs) := by
  suffices H : ∀ (ops : List Op) (w : World), (∀ op ∈ ops, fine op) →
      (∃ k, Kernel.replay ⟨[], []⟩ w.trace = some k ∧ k.fds = [] ∧ k.maps.Perm (needed w.objs)) →
      ∃ k, Kernel.replay ⟨[], []⟩ (ops.foldl (step d) w).trace = some k ∧ k.fds = [] ∧
        k.maps.Perm (needed (ops.foldl (step d) w).objs) from
    H ops ⟨[], []⟩ h ⟨⟨[], []⟩, rfl, rfl, by simp [needed]⟩
  intro ops
  induction ops with
  | nil => intro w _ hk; exact hk
  | cons op ops ih =>
    intro w hops ⟨k, h1, h2, h3⟩
    exact ih _ (fun x hx => hops x (by simp [hx]))
      (step_holds hc hd hcopy w op (hops op (by simp)) k h1 h2 h3)

/-- C65: in every history of constructors and destructors (unix), at every point no descriptor
is open and the mappings are exactly those of the live non-empty views: nothing leaks, nothing
is released twice, and when every view is destroyed nothing is left. -/
theorem C65_history_partial (ops : List Op) (h : ∀ op ∈ ops, Fine op) :
    ∃ k, Kernel.replay ⟨[], []⟩ (run unixDtor ops).trace = some k ∧ k.fds = [] ∧
      k.maps.Perm (needed (run unixDtor ops).objs) :=
  run_holds (fine := Fine) (by
    rintro r ⟨o, h1, h2, rfl⟩ k
    exact (C65_unix_partial o h1 h2 k).2) (fun _ _ => rfl) (fun _ h => h) ops h

example : ∀ op ∈ [Op.ctor (unixCtor ⟨⟨3, 0⟩, ⟨0, 0⟩, 100, ⟨4096, 0⟩⟩),
    .ctor (unixCtor ⟨⟨-1, 2⟩, ⟨0, 0⟩, 0, ⟨1, 0⟩⟩), .dtor 0, .dtor 0], Fine op := by
  intro op h
  simp only [List.mem_cons, List.not_mem_nil, or_false] at h
  rcases h with rfl | rfl | rfl | rfl
  · exact ⟨_, by decide, by decide, rfl⟩
  · exact ⟨_, by decide, by decide, rfl⟩
  · trivial
  · trivial

/-- C65: the same on Windows. -/
theorem C65_history_win_partial (ops : List Op) (h : ∀ op ∈ ops, FineW op) :
    ∃ k, Kernel.replay ⟨[], []⟩ (run winDtor ops).trace = some k ∧ k.fds = [] ∧
      k.maps.Perm (needed (run winDtor ops).objs) :=
  run_holds (fine := FineW) (by
    rintro r ⟨o, h1, h2, rfl⟩ k
    exact (C65_win_partial o h1 h2 k).2) (fun _ _ => rfl) (fun _ h => h) ops h

example : FineW (.ctor (winCtor ⟨⟨-1, 32⟩, ⟨7, 0⟩, ⟨1, 0⟩, 100, ⟨8, 0⟩, ⟨65536, 0⟩⟩)) :=
  ⟨_, by decide, by decide, rfl⟩

/-- C65, violated: the class can be copied, and then the mapping is released twice. -/
theorem C65_copy_violated :
    Kernel.replay ⟨[], []⟩ (run unixDtor
      [.ctor (unixCtor ⟨⟨3, 0⟩, ⟨0, 0⟩, 100, ⟨4096, 0⟩⟩), .copy 0, .dtor 0, .dtor 1]).trace = none := by
  decide

end Verif.FileView
