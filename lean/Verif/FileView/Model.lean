/-
Model of `file_view.hpp`, `file_view_unix.cpp` and `file_view_win32.cpp`.  The operating
system is an oracle: for each constructor call a record tells what each system call would
return.  The code's effects are a trace of events; RAII objects add their events when their
scope is left, by return or by exception.
-/
namespace Verif.FileView

/-- Effects on the operating system.  `what` distinguishes the two handles of Windows.
(file_view_unix.cpp:65-94, file_view_win32.cpp:73-112) -/
inductive Ev
  | opened (fd : Int)
  | closed (fd : Int)
  | mapped (addr size : Nat)
  | unmapped (addr size : Nat)
  deriving DecidableEq, Repr

/-- How a constructor ends: the error code of the `std::system_error`, or `contents_`
(data, size); the default constructed span is `(0, 0)`. (file_view_unix.cpp:65-85, file_view_win32.cpp:73-106) -/
inductive Result
  | thrown (code : Nat)
  | view (data size : Nat)
  deriving DecidableEq, Repr

/-- A call that returns `ret` and sets `errno`. (file_view_unix.cpp:67, 72, 78) -/
structure Call where
  ret : Int
  errno : Nat
  deriving DecidableEq, Repr

/-! ### file_view_unix.cpp -/

/-- `MAP_FAILED`, that is `(void*)-1`. (what `::mmap` at file_view_unix.cpp:78 gives on failure) -/
def mapFailed : Nat := 2 ^ 64 - 1

/-- What the system calls of one constructor would give. (file_view_unix.cpp:65-85) -/
structure Unix where
  /-- `::open` (67): descriptor or -1 -/
  open_ : Call
  /-- `fstat` (72): 0 or -1 -/
  fstat : Call
  /-- `file_info.st_size` after a successful `fstat` -/
  stSize : Nat
  /-- `::mmap` (78): address or `MAP_FAILED` -/
  mmap : Call
  deriving DecidableEq, Repr

/-- file_view_unix.cpp:17-57 `file_descriptor`: constructed from the result of `open`, closed
by the destructor unless -1, on every way out of the scope. -/
def withFd (fd : Int) (body : List Ev × Result) : List Ev × Result :=
  (body.1 ++ (if fd ≠ -1 then [.closed fd] else []), body.2)

/-- A successful call as an event. (file_view_unix.cpp:67) -/
def evOpen (c : Call) : List Ev := if c.ret = -1 then [] else [.opened c.ret]

/-- The mapping made by `mmap`, if any. (file_view_unix.cpp:78) -/
def evMap (c : Call) (size : Nat) : List Ev :=
  if c.ret = mapFailed then [] else [.mapped c.ret.toNat size]

/-- file_view_unix.cpp:65-85 the constructor. -/
def unixCtor (o : Unix) : List Ev × Result :=
  let fd := o.open_.ret
  let r := withFd fd (
    if fd = -1 then ([], .thrown o.open_.errno)
    else if o.fstat.ret = -1 then ([], .thrown o.fstat.errno)
    else if o.stSize = 0 then ([], .view 0 0)
    else
      let mapped := o.mmap.ret
      if mapped = 0 then (evMap o.mmap o.stSize, .thrown o.mmap.errno)
      else (evMap o.mmap o.stSize, .view mapped.toNat o.stSize))
  (evOpen o.open_ ++ r.1, r.2)

/-- file_view_unix.cpp:87-94 the destructor. -/
def unixDtor (data size : Nat) : List Ev :=
  if size ≠ 0 then [.unmapped data size] else []

/-! ### file_view_win32.cpp -/

/-- file_view_win32.cpp:73-106 what the system calls of one constructor would give. -/
structure Win where
  /-- `CreateFileA` with read sharing (76): handle or -1 -/
  create1 : Call
  /-- `CreateFileA` with read-write sharing (82) -/
  create2 : Call
  /-- `GetFileSizeEx` (90): non-zero for success -/
  getSize : Call
  /-- the size it stores when it succeeds -/
  size : Nat
  /-- `CreateFileMappingA` (94): handle or 0 -/
  mapping : Call
  /-- `MapViewOfFile` (99): address or 0 -/
  mapView : Call
  deriving DecidableEq, Repr

/-- file_view_win32.cpp:12-64 `handle<NullPolicy>` leaving its scope. -/
def withHandle (null h : Int) (body : List Ev × Result) : List Ev × Result :=
  (body.1 ++ (if h ≠ null then [.closed h] else []), body.2)

/-- file_view_win32.cpp:76, 82, 94 a successful call as an event. -/
def evHandle (null h : Int) : List Ev := if h = null then [] else [.opened h]

/-- file_view_win32.cpp:89-105 the part after the file was opened. -/
def winRest (o : Win) : List Ev × Result :=
  let fileSize := if o.getSize.ret = 0 then 0 else o.size
  if fileSize = 0 then ([], .view 0 0)
  else
    let h := o.mapping.ret
    let r := withHandle 0 h (
      if h = 0 then ([], .thrown o.mapping.errno)
      else if o.mapView.ret = 0 then ([], .thrown o.mapView.errno)
      else ([.mapped o.mapView.ret.toNat fileSize], .view o.mapView.ret.toNat fileSize))
    (evHandle 0 h ++ r.1, r.2)

/-- file_view_win32.cpp:73-106 the constructor.  The assignment in 82 swaps with a temporary
whose handle was invalid, so nothing is closed by it. -/
def winCtor (o : Win) : List Ev × Result :=
  if o.create1.ret ≠ -1 then
    let r := withHandle (-1) o.create1.ret (winRest o)
    (.opened o.create1.ret :: r.1, r.2)
  else
    let r := withHandle (-1) o.create2.ret
      (if o.create2.ret = -1 then ([], .thrown o.create2.errno) else winRest o)
    (evHandle (-1) o.create2.ret ++ r.1, r.2)

/-- file_view_win32.cpp:108-112 the destructor (the size is implied by the address). -/
def winDtor (data size : Nat) : List Ev :=
  if size ≠ 0 then [.unmapped data size] else []

/-! ### Histories of file_view objects -/

/-- What a program does with its `file_view` objects; `ctor` carries the outcome of the
constructor.  `copy` is the implicit copy constructor (file_view.hpp:8-20 declares none). -/
inductive Op
  | ctor (r : List Ev × Result)
  | dtor (i : Nat)
  | copy (i : Nat)

/-- The live objects (`none` once destroyed) and all effects so far. (file_view.hpp:8-20) -/
structure World where
  objs : List (Option (Nat × Nat))
  trace : List Ev

/-- One operation; the destructor of platform `d`. (file_view.hpp:8-20) -/
def step (d : Nat → Nat → List Ev) (w : World) : Op → World
  | .ctor (tr, .thrown _) => { w with trace := w.trace ++ tr }
  | .ctor (tr, .view a n) => ⟨w.objs ++ [some (a, n)], w.trace ++ tr⟩
  | .dtor i =>
    match w.objs[i]? with
    | some (some (a, n)) => ⟨w.objs.set i none, w.trace ++ d a n⟩
    | _ => w
  | .copy i =>
    match w.objs[i]? with
    | some (some o) => { w with objs := w.objs ++ [some o] }
    | _ => w

/-- Constructors, copies and destructors of file_view.hpp:8-20 one after the other. -/
def run (d : Nat → Nat → List Ev) (ops : List Op) : World := ops.foldl (step d) ⟨[], []⟩

end Verif.FileView
