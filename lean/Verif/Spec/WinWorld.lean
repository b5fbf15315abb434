import Verif.Model.WindowsMap
import Verif.Spec.Platform
/-
Whole programs on Windows: any number of maps and rings, made, used and dropped in any order.
C105 and C107 are stated over the states such programs can reach.
-/
namespace Vmap
open Spec

/-- A thing the program holds: a `Map` or `MapMut`, a `Ring`, an `InfiniteRing`. -/
inductive WinHandle
  | map (m : MapMut)
  | ring (r : Ring)
  | inf (r : InfiniteRing)

/-- A running program: the process and what it holds.  `next` is the next unused handle number;
`empties` lists the zero-length maps dropped so far, whose view stays mapped (C81).  Both are
bookkeeping for statements. -/
structure WinWorld where
  s : Vmap.Win
  held : Nat → Option WinHandle
  next : Nat
  empties : List MapMut

/-- What a program can do. -/
inductive WinOp
  /-- `Options::map_if` (`map` differs only in what it returns) -/
  | mapIf (o : Options) (file : Nat)
  /-- `Options::alloc` (and `MapMut::new`) -/
  | alloc (o : Options)
  /-- `Ring::new` -/
  | newRing (hint : Nat)
  /-- `InfiniteRing::new` -/
  | newInf (hint : Nat)
  /-- drop a map or a ring -/
  | drop (i : Nat)
  /-- `flush_range` -/
  | flush (i file off len : Nat) (mode : FlushMode)
  /-- `advise_range` -/
  | advise (i off len : Nat) (adv : Advise)
  /-- `lock_range` -/
  | lock (i off len : Nat)
  /-- `unlock_range` -/
  | unlock (i off len : Nat)
  /-- `Map::into_map_mut` -/
  | intoMapMut (i : Nat)
  /-- `MapMut::into_map` -/
  | intoMap (i : Nat)
  /-- `map[idx] = b` -/
  | set (i idx : Nat) (b : Byte)
  /-- any call on a `Ring`: it changes the ring's memory and the two positions
  (src/io/ring.rs:98-152) -/
  | ringUse (i rpos wpos : Nat) (mem : Nat → Byte)
  /-- any call on an `InfiniteRing` -/
  | infUse (i rlen wpos : Nat) (mem : Nat → Byte)
  /-- files are opened, closed, written or resized, by this or any other process -/
  | files (f : Nat → Option Nat) (d : Nat → Nat → Byte)

namespace WinWorld

/-- A program that holds nothing yet. -/
def start (s : Vmap.Win) : WinWorld := ⟨s, fun _ => none, 0, []⟩

/-- The program obtains a new handle. -/
def put (w : WinWorld) (s : Vmap.Win) (h : WinHandle) : WinWorld :=
  { w with s := s, held := fun j => if j = w.next then some h else w.held j, next := w.next + 1 }

/-- Handle `i` becomes `h`. -/
def upd (w : WinWorld) (s : Vmap.Win) (i : Nat) (h : Option WinHandle) : WinWorld :=
  { w with s := s, held := fun j => if j = i then h else w.held j }

/-- Only the process changes. -/
def run (w : WinWorld) (s : Vmap.Win) : WinWorld := { w with s := s }

/-- A call on a map that changes only the process. -/
def onMap {α : Type} (w : WinWorld) (i : Nat) (f : MapMut → Exec (Vmap.Win × α)) : Exec WinWorld :=
  match w.held i with
  | some (.map m) => do
    let (s, _) ← f m
    return w.run s
  | _ => return w

/-- The memory at `ptr`, which is of no file, gets new contents. -/
def fill (s : Vmap.Win) (ptr : Nat) (mem : Nat → Byte) : Vmap.Win :=
  match s.look ptr with
  | none => s
  | some v => { s with bytes := { s.bytes with
      mem := fun id => if id = v.sec.id then mem else s.bytes.mem id } }

/-- One step of a program (the model's functions, applied to what the program holds; a call on a
handle of the wrong kind does not exist in Rust and does nothing here). -/
def step (tab : SysTable) (t : Target) (w : WinWorld) : WinOp → Exec WinWorld
  | .mapIf o file => do
    match ← w.s.mapIf tab t o file with
    | (s, .ok (some m)) => return w.put s (.map m)
    | (s, _) => return w.run s
  | .alloc o => do
    match ← w.s.alloc t o with
    | (s, .ok m) => return w.put s (.map m)
    | (s, .error _) => return w.run s
  | .newRing hint => do
    match ← w.s.ringNew t hint with
    | (s, .ok r) => return w.put s (.ring r)
    | (s, .error _) => return w.run s
  | .newInf hint => do
    match ← w.s.infNew t hint with
    | (s, .ok r) => return w.put s (.inf r)
    | (s, .error _) => return w.run s
  | .drop i =>
    match w.held i with
    | some (.map m) => do
      let s ← w.s.dropMap t m
      let w := w.upd s i none
      return { w with empties := if m.len = 0 then m :: w.empties else w.empties }
    | some (.ring r) => return w.upd (w.s.dropRing t r) i none
    | some (.inf r) => return w.upd (w.s.dropInf t r) i none
    | none => return w
  | .flush i file off len mode => w.onMap i (fun m => w.s.flushRange t m file off len mode)
  | .advise i off len adv => w.onMap i (fun m => w.s.adviseRange t m off len adv)
  | .lock i off len => w.onMap i (fun m => w.s.lockRange t m off len)
  | .unlock i off len => w.onMap i (fun m => w.s.unlockRange t m off len)
  | .intoMapMut i => w.onMap i (fun m => w.s.intoMapMut t ⟨m⟩)
  | .intoMap i => w.onMap i (fun m => w.s.intoMap t m)
  | .set i idx b =>
    match w.held i with
    | some (.map m) => do
      let s ← w.s.set m idx b
      return w.run s
    | _ => return w
  | .ringUse i rpos wpos mem =>
    match w.held i with
    | some (.ring r) => return w.upd (fill w.s r.ptr mem) i (some (.ring { r with rpos, wpos }))
    | _ => return w
  | .infUse i rlen wpos mem =>
    match w.held i with
    | some (.inf r) => return w.upd (fill w.s r.ptr mem) i (some (.inf { r with rlen, wpos }))
    | _ => return w
  | .files f d => return w.run { w.s with files := f, bytes := { w.s.bytes with file := d } }

end WinWorld

/-- The arguments do not overflow. -/
def WinOp.Sane (t : Target) (w : WinWorld) : WinOp → Prop
  | .mapIf o _ => Fits t o
  | .alloc o => WinAllocFits t w.s.gran (o.offset % w.s.page) o.len
  | .newRing hint => 2 * (hint + w.s.gran) < t.lim
  | .newInf hint => 2 * (hint + w.s.gran) < t.lim
  | _ => True

/-- The states a program can reach from the process `s0`, by any number of steps. -/
inductive WinReach (tab : SysTable) (t : Target) (s0 : Vmap.Win) : WinWorld → Prop
  | start : WinReach tab t s0 (WinWorld.start s0)
  | step {w w' : WinWorld} {op : WinOp} (before : WinReach tab t s0 w) (sane : op.Sane t w)
      (step : w.step tab t op = .ok w') : WinReach tab t s0 w'

/-- The program gets from `w` to `w'` by any number of steps. -/
inductive WinLater (tab : SysTable) (t : Target) (w : WinWorld) : WinWorld → Prop
  | refl : WinLater tab t w w
  | step {w1 w2 : WinWorld} {op : WinOp} (before : WinLater tab t w w1) (sane : op.Sane t w1)
      (step : w1.step tab t op = .ok w2) : WinLater tab t w w2

namespace Spec

/-- View `v` is the memory of the map, with granularity `u`: it begins with the granule in which the
map begins, and contains the map. -/
def MapView (u : Nat) (m : MapMut) (v : WinView) : Prop :=
  u ∣ v.base ∧ v.base ≤ m.ptr ∧ m.ptr < v.base + u ∧ m.ptr + m.len ≤ v.base + v.len

/-- View `v` is one half of the ring of `len` bytes at `ptr`. -/
def RingView (ptr len : Nat) (v : WinView) : Prop :=
  (v.base = ptr ∨ v.base = ptr + len) ∧ v.len = len

/-- View `v` is memory of the handle. -/
def WinHandle.Owns (u : Nat) : WinHandle → WinView → Prop
  | .map m, v => MapView u m v
  | .ring r, v => RingView r.ptr r.len v
  | .inf r, v => RingView r.ptr r.len v

/-- The addresses of a handle. -/
def WinHandle.Has : WinHandle → Nat → Prop
  | .map m, a => m.ptr ≤ a ∧ a < m.ptr + m.len
  | .ring r, a => r.ptr ≤ a ∧ a < r.ptr + 2 * r.len
  | .inf r, a => r.ptr ≤ a ∧ a < r.ptr + 2 * r.len

/-- The handle has its memory: a map one view, a ring one view for each half, both of
the same section from its start, for reading and writing. -/
def WinHandle.There (u : Nat) (vs : List WinView) : WinHandle → Prop
  | .map m => ∃ v, v ∈ vs ∧ MapView u m v
  | .ring r => ∃ v1 v2, v1 ∈ vs ∧ v2 ∈ vs ∧ v1.base = r.ptr ∧ v2.base = r.ptr + r.len ∧
      v1.len = r.len ∧ v2.len = r.len ∧ 0 < r.len ∧ v1.sec = v2.sec ∧ v1.off = 0 ∧ v2.off = 0 ∧
      v1.access = { read := true, write := true } ∧ v2.access = { read := true, write := true }
  | .inf r => ∃ v1 v2, v1 ∈ vs ∧ v2 ∈ vs ∧ v1.base = r.ptr ∧ v2.base = r.ptr + r.len ∧
      v1.len = r.len ∧ v2.len = r.len ∧ 0 < r.len ∧ v1.sec = v2.sec ∧ v1.off = 0 ∧ v2.off = 0 ∧
      v1.access = { read := true, write := true } ∧ v2.access = { read := true, write := true }

/-- `[addr, addr + len)` is the fewest whole pages of `u` bytes that contain `l` bytes from `a` on. -/
structure WinPages (u a l addr len : Nat) : Prop where
  addr_dvd : u ∣ addr
  len_dvd : u ∣ len
  lower : addr ≤ a
  lower' : a < addr + u
  upper : a + l ≤ addr + len
  upper' : addr + len < a + l + u

/-- What an address shows: the file (or memory), the section, the byte, and the access. -/
def winSees (s : Vmap.Win) (a : Nat) : Option (Section × Nat × WinAccess) :=
  (s.views.find? (fun v => decide (v.base ≤ a ∧ a < v.base + v.len))).map
    (fun v => (v.sec, v.off + (a - v.base), v.access))

/-- Still the same thing: a map is the same map, a ring the same memory. -/
def WinHandle.Same : WinHandle → WinHandle → Prop
  | .map m, .map m' => m = m'
  | .ring r, .ring r' => r'.ptr = r.ptr ∧ r'.len = r.len
  | .inf r, .inf r' => r'.ptr = r.ptr ∧ r'.len = r.len
  | _, _ => False

end Spec
end Vmap
