import Verif.Spec.WinMapJob
import Verif.Proofs.WinJob
import Verif.Proofs.Race
import Verif.Proofs.WinBytes
/-
Lemmas for C147: one system call of `map_if` and `alloc` on Windows at a time.
-/
namespace Vmap
open Spec

/-! ### Calls in general -/

/-- What a call in progress has is there. -/
structure WinHasAll (a : WinHas) (s : Win) : Prop where
  handle : ∀ h, a.handle = some h → ∃ sec, s.handles h = some sec ∧ sec.id = h
  room : ∀ r, a.room = some r → r ∈ s.reserved
  bases : ∀ b, b ∈ a.bases → ∃ v, v ∈ s.views ∧ v.base = b

/-- A call of one is something that may happen around the other. -/
theorem winActs_around {t : Target} {s0 s s' : Win} {a a' b : WinHas} (w : WinFine t s0 s) (w' : WinFine t s0 s')
    (ha : WinHasAll a s) (ha' : WinHasAll a' s') (hb : WinHasAll b s) (m : WinActs a a' s s') (ap : WinDistinct a b) :
    WinAround t b s s' ∧ WinDistinct a' b := by
  refine ⟨⟨w'.wf, w'.laid, w'.space, m.page, m.gran, m.next, ?_, ?_, ?_, ?_⟩, ?_, ?_, ?_⟩
  · intro h hi
    refine m.handles h (fun hj => ap.handle h hj hi) (fun hj => ?_)
    rcases m.newHandle h hj with hj | hj
    · exact ap.handle h hj hi
    · obtain ⟨x, hx, -⟩ := hb.handle h hi
      have := (w.wf.handles h x hx).1
      omega
  · intro r hi hr
    refine (m.reserved r (fun hj => ap.room r hj hi) (fun hj => ?_)).mpr hr
    rcases m.newRoom r hj with hj | hj
    · exact ap.room r hj hi
    · exact hj hr
  · intro v hv hi
    refine (m.views v (fun hj => ap.bases _ hj hi) (fun hj => ?_)).mpr hv
    rcases m.newViews _ hj with hj | hj
    · exact ap.bases _ hj hi
    · exact hj v hv rfl
  · intro h sec hi hs
    obtain ⟨x, hx, hxid⟩ := hb.handle h hi
    obtain rfl : x = sec := Option.some.inj (hx.symm.trans hs)
    have lt := (w.wf.handles h x hx).1
    have lt2 := (w.wf.handles h x hx).2
    refine ⟨fun v hv hid => ?_, fun q y hy hid => ?_, (m.old _ lt2).1, (m.old _ lt2).2⟩
    · by_cases hm : v ∈ s.views
      · exact hm
      · exfalso
        obtain ⟨g, hg, hs⟩ := m.section' v hv hm
        obtain ⟨y, hy, hyid⟩ := ha.handle g hg
        rw [hy] at hs
        rw [← Option.some.inj hs] at hid
        exact ap.handle g hg ((show g = h by omega) ▸ hi)
    · by_cases h1 : a'.handle = some q
      · exfalso
        obtain ⟨z, hz, hzid⟩ := ha'.handle q h1
        rw [hz] at hy
        cases hy
        have hqh : q = h := by omega
        subst hqh
        rcases m.newHandle q h1 with hj | hj
        · exact ap.handle q hj hi
        · omega
      · by_cases h2 : a.handle = some q
        · rw [m.goneHandle q h2 h1] at hy
          cases hy
        · rw [← m.handles q h2 h1]
          exact hy
  · intro h h1 hi
    rcases m.newHandle h h1 with hj | hj
    · exact ap.handle h hj hi
    · obtain ⟨x, hx, -⟩ := hb.handle h hi
      have := (w.wf.handles h x hx).1
      omega
  · intro r h1 hi
    rcases m.newRoom r h1 with hj | hj
    · exact ap.room r hj hi
    · exact hj (hb.room r hi)
  · intro b h1 hi
    rcases m.newViews b h1 with hj | hj
    · exact ap.bases b hj hi
    · obtain ⟨v, hv, hb⟩ := hb.bases b hi
      exact hj v hv hb

/-- A call that leaves everything the process has as it is. -/
theorem _root_.Vmap.Spec.WinActs.none {a a' : WinHas} {s s' : Win} (hv : s'.views = s.views)
    (hr : s'.reserved = s.reserved) (hh : s'.handles = s.handles)
    (hp : s'.page = s.page) (hg : s'.gran = s.gran) (hm : s'.bytes.mem = s.bytes.mem)
    (ho : s'.bytes.own = s.bytes.own) (hn : s'.next = s.next) (ha : a' = a) :
    WinActs a a' s s' where
  next := by omega
  old := fun _ _ => by rw [hm, ho]; exact ⟨rfl, rfl⟩
  page := hp
  gran := hg
  handles := fun _ _ _ => by rw [hh]
  reserved := fun _ _ _ => by rw [hr]
  views := fun _ _ _ => by rw [hv]
  newHandle := fun _ h => .inl (ha ▸ h)
  newRoom := fun _ h => .inl (ha ▸ h)
  newViews := fun _ h => .inl (ha ▸ h)
  section' := fun _ h n => absurd (hv ▸ h) n
  goneHandle := fun _ h n => absurd (ha ▸ h) n
  goneRoom := fun _ h n => absurd (ha ▸ h) n
  goneViews := fun _ h n => absurd (ha ▸ h) n

/-! ### Ring creations are such calls -/

theorem ring_around {t : Target} {len : Nat} {j : WinRingJob} {s s' : Win} (h : WinAround t (j.has len) s s') :
    WinOutside t len j s s' :=
  ⟨h.wf, h.laid, h.space, h.page, h.gran, h.next, h.handle, h.reserved, h.views, h.own⟩

theorem ring_acts {len : Nat} {j j' : WinRingJob} {s s' : Win} (h : WinMinds len j j' s s') :
    WinActs (j.has len) (j'.has len) s s' :=
  ⟨h.bytes.next, h.bytes.old, h.page, h.gran, h.handles, h.reserved, h.views, h.newHandle, h.newRoom, h.newViews,
    h.section', h.goneHandle, h.goneRoom, h.goneViews⟩

theorem ring_holds {t : Target} {s0 s : Win} {len : Nat} {j : WinRingJob} (ok : WinJobOk t s0 s len j) :
    WinHasAll (j.has len) s := by
  refine ⟨fun h hj => ?_, fun r hr => ok.room_there hr, fun b hb => ok.bases_there hb⟩
  obtain ⟨vs, o, -⟩ := ok.view_sec hj
  exact ⟨_, o.handle, rfl⟩

/-! ### Maps -/

/-- The section of handle `h` is the call's own, and viewed by `vs` only. -/
structure WinMapSec (s0 s : Win) (h : Nat) (sec : Section) (vs : List WinView) : Prop where
  id : sec.id = h
  late : s0.next ≤ h
  handle : s.handles h = some sec
  zero : ∀ i, s.bytes.mem h i = 0
  own : ∀ a, s.bytes.own h a = none
  only : ∀ v, v ∈ s.views → v.sec.id = h → v ∈ vs
  have' : ∀ v, v ∈ vs → v ∈ s.views
  alone : ∀ h' x, s.handles h' = some x → x.id = h → h' = h

/-- The file's length was `n` at some moment. -/
def WinWas (H : List Win) (file n : Nat) : Prop := ∃ s ∈ H, s.files file = some n

/-- The errors of a call. -/
def WinMapErr : WinMapJob → Error → Prop
  | .anon, e => e.op = .mapAnonymousHandle ∨ e.op = .mapAnonymousView
  | _, e => e.op = .mapFile ∨ e.op = .mapFileHandle ∨ e.op = .mapFileView

/-- The file of a call. -/
def winFileOf (file : Nat) : WinMapJob → Option Nat
  | .anon => none
  | _ => some file

/-- The first byte of the section a map shows (`u`: the page size). -/
def winOff (u : Nat) (o : Options) : WinMapJob → Nat
  | .anon => o.offset % u
  | _ => o.offset

/-- The length `n` of the map and the size of its section are right. -/
def WinRight (t : Target) (s0 : Win) (o : Options) (file : Nat) (H : List Win) (n size : Nat) : WinMapJob → Prop
  | .anon => AllocLen s0.gran (o.offset % s0.page) o.len n ∧ size = o.offset % s0.page + n
  | _ => WinWas H file size ∧ ∃ l, WinWas H file l ∧ InRange (newLen o.truncate o.resize (l % t.lim)) o.offset o.len ∧
      n = wanted (newLen o.truncate o.resize (l % t.lim)) o.offset o.len

/-- What is to be viewed. -/
structure WinPlan (t : Target) (s0 : Win) (o : Options) (file : Nat) (b : WinMapJob) (H : List Win) (sec : Section)
    (access : WinAccess) (off len d n : Nat) : Prop where
  right : WinRight t s0 o file H n sec.size b
  file' : sec.file = winFileOf file b
  allows : WinAllows o.protect access
  start : off + d = winOff s0.page o b
  lim : off < t.lim
  small : d < s0.gran
  whole : len = d + n
  dvd : s0.gran ∣ off

/-- The view that has been made. -/
structure WinGot (t : Target) (s0 : Win) (sec : Section) (access : WinAccess) (off len : Nat) (v : WinView) : Prop where
  sec' : v.sec = sec
  off' : v.off = off
  access' : v.access = access
  len' : len ≤ v.len
  fits : off + v.len ≤ sec.size
  ne : v.base ≠ 0
  dvd : s0.gran ∣ v.base
  lim : v.base + v.len < t.lim

/-- What holds where. -/
def WinMapOk (t : Target) (s0 : Win) (o : Options) (file : Nat) (b : WinMapJob) (H : List Win) (s : Win) :
    WinMapJob → Prop
  | .stat => b = .stat
  | .truncate => b = .stat ∧ o.truncate = true ∧ ∃ l, WinWas H file l
  | .resize sz => b = .stat ∧ (∃ l, WinWas H file l ∧ sz = newLen o.truncate o.resize (l % t.lim)) ∧
      (o.resize = .exact sz ∨ o.resize = .min sz ∨ o.resize = .max sz)
  | .create flen => b = .stat ∧ ∃ l, WinWas H file l ∧ flen = newLen o.truncate o.resize (l % t.lim)
  | .anon => b = .anon
  | .view h op access off len d n => (∃ sec, WinPlan t s0 o file b H sec access off len d n ∧ WinMapSec s0 s h sec []) ∧
      ∀ code, WinMapErr b (Error.lastOsError op code)
  | .close h d n (.ok ptr) => ∃ sec access off len v, WinPlan t s0 o file b H sec access off len d n ∧
      WinGot t s0 sec access off len v ∧ v.base = ptr ∧ WinMapSec s0 s h sec [v]
  | .close h _ _ (.error e) => (∃ sec, WinMapSec s0 s h sec []) ∧ WinMapErr b e
  | .done (.ok none) => b = .stat ∧ ∃ l, WinWas H file l ∧
      ¬ InRange (newLen o.truncate o.resize (l % t.lim)) o.offset o.len
  | .done (.ok (some m)) => (∃ size, WinRight t s0 o file H m.len size b) ∧
      ∃ v, v ∈ s.views ∧ v.base = m.ptr / s0.gran * s0.gran
  | .done (.error e) => WinMapErr b e

theorem WinWas.mono {H H' : List Win} {file n : Nat} (h : WinWas H file n) (hs : ∀ s, s ∈ H → s ∈ H') :
    WinWas H' file n := by
  obtain ⟨s, h1, h2⟩ := h
  exact ⟨s, hs s h1, h2⟩

theorem WinRight.mono {t : Target} {s0 : Win} {o : Options} {file n size : Nat} {b : WinMapJob} {H H' : List Win}
    (h : WinRight t s0 o file H n size b) (hs : ∀ s, s ∈ H → s ∈ H') : WinRight t s0 o file H' n size b := by
  cases b with
  | anon => exact h
  | _ => obtain ⟨h1, l, h2, h3⟩ := h; exact ⟨h1.mono hs, l, h2.mono hs, h3⟩

theorem WinPlan.mono {t : Target} {s0 : Win} {o : Options} {file : Nat} {b : WinMapJob} {H H' : List Win} {sec : Section}
    {access : WinAccess} {off len d n : Nat} (h : WinPlan t s0 o file b H sec access off len d n)
    (hs : ∀ s, s ∈ H → s ∈ H') : WinPlan t s0 o file b H' sec access off len d n :=
  { h with right := h.right.mono hs }

theorem WinMapSec.other {t : Target} {s0 s s' : Win} {h : Nat} {sec : Section} {vs : List WinView} {a : WinHas}
    (x : WinMapSec s0 s h sec vs) (what : WinAround t a s s') (ha : a.handle = some h)
    (hb : ∀ v, v ∈ vs → v.base ∈ a.bases) : WinMapSec s0 s' h sec vs := by
  obtain ⟨h1, h2, h3, h4⟩ := what.own h _ ha x.handle
  rw [x.id] at h1 h2 h3 h4
  exact ⟨x.id, x.late, (what.handle h ha).trans x.handle, by rw [h3]; exact x.zero, by rw [h4]; exact x.own,
    fun v hv hid => x.only v (h1 v hv hid) hid, fun v hv => what.views v (x.have' v hv) (hb v hv),
    fun q y hy hid => x.alone q y (h2 q y hy hid) hid⟩

/-- Somebody else's turn. -/
theorem WinMapOk.other {t : Target} {s0 s s' : Win} {o : Options} {file : Nat} {b j : WinMapJob} {H : List Win}
    (ok : WinMapOk t s0 o file b H s j) (what : WinAround t (j.has s0.gran) s s') :
    WinMapOk t s0 o file b (s :: H) s' j := by
  have sub : ∀ x, x ∈ H → x ∈ s :: H := fun x hx => List.mem_cons_of_mem _ hx
  match j, ok with
  | .stat, ok => exact ok
  | .truncate, ⟨h1, h2, l, h3⟩ => exact ⟨h1, h2, l, h3.mono sub⟩
  | .resize sz, ⟨h1, ⟨l, h2, h3⟩, h4⟩ => exact ⟨h1, ⟨l, h2.mono sub, h3⟩, h4⟩
  | .create flen, ⟨h1, l, h2, h3⟩ => exact ⟨h1, l, h2.mono sub, h3⟩
  | .anon, ok => exact ok
  | .view h op access off len d n, ⟨⟨sec, h1, h2⟩, h3⟩ =>
    exact ⟨⟨sec, h1.mono sub, h2.other what rfl (fun v hv => by cases hv)⟩, h3⟩
  | .close h d n (.ok ptr), ⟨sec, access, off, len, v, h1, h2, h3, h4⟩ =>
    refine ⟨sec, access, off, len, v, h1.mono sub, h2, h3, h4.other what rfl (fun x hx => ?_)⟩
    simp only [List.mem_cons, List.not_mem_nil, or_false] at hx
    rw [hx, h3]
    exact List.mem_cons_self
  | .close h d n (.error e), ⟨⟨sec, h1⟩, h2⟩ => exact ⟨⟨sec, h1.other what rfl (fun v hv => by cases hv)⟩, h2⟩
  | .done (.ok none), ⟨h1, l, h2, h3⟩ => exact ⟨h1, l, h2.mono sub, h3⟩
  | .done (.ok (some m)), ⟨⟨size, h1⟩, v, h2, h3⟩ =>
    refine ⟨⟨size, h1.mono sub⟩, v, what.views v h2 ?_, h3⟩
    rw [h3]
    exact List.mem_cons_self
  | .done (.error e), ok => exact ok

theorem WinFine.around {t : Target} {s0 s s' : Win} {a : WinHas} (w : WinFine t s0 s)
    (what : WinAround t a s s') : WinFine t s0 s' :=
  ⟨what.wf, what.laid, what.space, what.page.trans w.page, what.gran.trans w.gran, Nat.le_trans w.next what.next⟩

theorem WinMapOk.holds {t : Target} {s0 s : Win} {o : Options} {file : Nat} {b j : WinMapJob} {H : List Win}
    (ok : WinMapOk t s0 o file b H s j) : WinHasAll (j.has s0.gran) s := by
  match j, ok with
  | .stat, _ => exact ⟨fun _ h => (nomatch h), fun _ h => (nomatch h), fun _ h => (nomatch h)⟩
  | .truncate, _ => exact ⟨fun _ h => (nomatch h), fun _ h => (nomatch h), fun _ h => (nomatch h)⟩
  | .resize _, _ => exact ⟨fun _ h => (nomatch h), fun _ h => (nomatch h), fun _ h => (nomatch h)⟩
  | .create _, _ => exact ⟨fun _ h => (nomatch h), fun _ h => (nomatch h), fun _ h => (nomatch h)⟩
  | .anon, _ => exact ⟨fun _ h => (nomatch h), fun _ h => (nomatch h), fun _ h => (nomatch h)⟩
  | .view h op access off len d n, ⟨⟨sec, h1, h2⟩, h3⟩ =>
    exact ⟨fun _ h => (by cases h; exact ⟨_, h2.handle, h2.id⟩), fun _ h => (nomatch h), fun _ h => (nomatch h)⟩
  | .close h d n (.ok ptr), ⟨sec, access, off, len, v, h1, h2, h3, h4⟩ =>
    refine ⟨fun _ h => (by cases h; exact ⟨_, h4.handle, h4.id⟩), fun _ h => (nomatch h), fun x hx => ?_⟩
    simp only [WinMapJob.has, WinMapJob.bases, List.mem_cons, List.not_mem_nil, or_false] at hx
    exact ⟨v, h4.have' v List.mem_cons_self, by rw [hx, h3]⟩
  | .close h d n (.error e), ⟨⟨sec, h1⟩, h2⟩ =>
    exact ⟨fun _ h => (by cases h; exact ⟨_, h1.handle, h1.id⟩), fun _ h => (nomatch h), fun _ h => (nomatch h)⟩
  | .done (.ok none), _ => exact ⟨fun _ h => (nomatch h), fun _ h => (nomatch h), fun _ h => (nomatch h)⟩
  | .done (.ok (some m)), ⟨⟨size, h1⟩, v, h2, h3⟩ =>
    refine ⟨fun _ h => (nomatch h), fun _ h => (nomatch h), fun x hx => ?_⟩
    simp only [WinMapJob.has, WinMapJob.bases, List.mem_cons, List.not_mem_nil, or_false] at hx
    exact ⟨v, h2, by rw [hx, h3]⟩
  | .done (.error e), _ => exact ⟨fun _ h => (nomatch h), fun _ h => (nomatch h), fun _ h => (nomatch h)⟩

/-- How many calls are left at most. -/
def WinMapJob.rank : WinMapJob → Nat
  | .stat => 6
  | .truncate => 5
  | .resize _ => 4
  | .create _ => 3
  | .anon => 3
  | .view .. => 2
  | .close .. => 1
  | .done _ => 0

/-- What one system call does. -/
structure WinMapOwn (t : Target) (s0 : Win) (o : Options) (file : Nat) (b : WinMapJob) (H : List Win) (s s' : Win)
    (j j' : WinMapJob) : Prop where
  fine : WinFine t s0 s'
  ok : WinMapOk t s0 o file b (s :: H) s' j'
  acts : WinActs (j.has s0.gran) (j'.has s0.gran) s s'
  cut : WinFileCut s s' file (winLengths o b)
  locked : s'.locked = s.locked
  rank : j'.rank ≤ j.rank - 1

open Win

theorem winAfter_rank (o : Options) (n : Nat) : (WinMapJob.afterTruncate o n).rank ≤ 4 := by
  unfold WinMapJob.afterTruncate
  cases o.resize <;> simp only <;> (try split) <;> simp [WinMapJob.rank]

theorem winAfter_has (u : Nat) (o : Options) (n : Nat) : (WinMapJob.afterTruncate o n).has u = ⟨none, none, []⟩ := by
  unfold WinMapJob.afterTruncate
  cases o.resize <;> simp only <;> (try split) <;> rfl

theorem winAfter_ok {t : Target} {s0 s : Win} {o : Options} {file : Nat} {H : List Win} {l : Nat}
    (hl : WinWas H file l) {n : Nat} (hn : n = if o.truncate then 0 else l % t.lim) :
    WinMapOk t s0 o file .stat H s (WinMapJob.afterTruncate o n) := by
  have key : newLen o.truncate o.resize (l % t.lim) = match o.resize with
      | .exact sz => sz
      | .min sz => Nat.max sz n
      | .max sz => Nat.min sz n
      | .endOf => n := by
    unfold newLen; subst hn; rfl
  unfold WinMapJob.afterTruncate
  cases hres : o.resize with
  | endOf => rw [hres] at key; exact ⟨rfl, l, hl, by rw [hres, key]⟩
  | exact sz => rw [hres] at key; exact ⟨rfl, ⟨l, hl, by rw [hres, key]⟩, .inl hres⟩
  | min sz =>
    rw [hres] at key
    simp only at key
    have e : Nat.max sz n = max sz n := rfl
    simp only
    split
    · exact ⟨rfl, ⟨l, hl, by rw [hres, key, e]; omega⟩, .inr (.inl hres)⟩
    · exact ⟨rfl, l, hl, by rw [hres, key, e]; omega⟩
  | max sz =>
    rw [hres] at key
    simp only at key
    have e : Nat.min sz n = min sz n := rfl
    simp only
    split
    · exact ⟨rfl, ⟨l, hl, by rw [hres, key, e]; omega⟩, .inr (.inr hres)⟩
    · exact ⟨rfl, l, hl, by rw [hres, key, e]; omega⟩

/-- A file gets its length. -/
theorem winMap_resize (tab : SysTable) {t : Target} {s0 s : Win} (w : WinFine t s0 s) (file : Nat) {sz : Nat}
    (hs : sz < lim64) {ls : List Nat} (hl : sz ∈ ls) :
    (∃ s1 e, s.resizeFile tab file sz = (s1, .error e) ∧ e.op = .mapFile ∧ WinFine t s0 s1 ∧
      (∀ a, WinActs a a s s1) ∧ WinFileCut s s1 file ls ∧ s1.locked = s.locked) ∨
    ∃ s1, s.resizeFile tab file sz = (s1, .ok sz) ∧ WinFine t s0 s1 ∧
      (∀ a, WinActs a a s s1) ∧ WinFileCut s s1 file ls ∧ s1.locked = s.locked := by
  have h64 : asU64 sz = sz := Nat.mod_eq_of_lt hs
  unfold Win.resizeFile Win.setLen
  rw [h64]
  by_cases hc : s.choice.ok = true ∧ s.files file ≠ none ∧ sz < lim64 / 2 ∧
      s.views.all (fun v => decide (v.sec.file = some file → v.sec.size ≤ sz))
  · rw [if_pos hc]
    refine .inr ⟨_, rfl, w.less (List.Sublist.refl _) (List.Sublist.refl _) (fun _ _ h => h) rfl rfl rfl,
      fun a => .none rfl rfl rfl rfl rfl rfl rfl rfl rfl, .inr ?_, rfl⟩
    obtain ⟨old, hold⟩ := Option.ne_none_iff_exists'.mp hc.2.1
    refine ⟨old, sz, hl, hold, by simp, fun f hf => ⟨by simp [hf], ?_⟩, fun i => ?_, fun v hv hf => ?_⟩
    · funext i
      simp [WinBytes.resize, hf]
    · simp only [WinBytes.resize, hold, Option.getD_some, true_and]
      by_cases h : i < old ∧ i < sz
      · rw [if_neg (by omega), if_pos h]
      · rw [if_pos (by omega), if_neg h]
    · have := List.all_eq_true.mp hc.2.2.2 v hv
      simp only [decide_eq_true_eq] at this
      exact this hf
  · rw [if_neg hc]
    exact .inl ⟨_, _, rfl, rfl, w.did _, fun a => .none rfl rfl rfl rfl rfl rfl rfl rfl rfl, .inl ⟨rfl, rfl⟩, rfl⟩

theorem winMap_stat (tab : SysTable) {t : Target} {s0 s : Win} (w : WinFine t s0 s) {o : Options} {file : Nat}
    {H : List Win} {b : WinMapJob} (ok : WinMapOk t s0 o file b H s .stat) :
    ∃ s' j', WinMapJob.step tab t s o file .stat = .ok (s', j') ∧ WinMapOwn t s0 o file b H s s' .stat j' := by
  have hb : b = .stat := ok
  subst hb
  have two : (∃ e, s.fileLen tab file = (s.did (.getFileInfo file), .error e)) ∨
      ∃ l, s.files file = some l ∧ s.fileLen tab file = (s.did (.getFileInfo file), .ok l) := by
    simp only [fileLen]
    cases hf : s.files file with
    | none => exact .inl ⟨_, rfl⟩
    | some l =>
      simp only
      by_cases hc : s.choice.ok = true
      · rw [if_pos hc]
        exact .inr ⟨l, rfl, rfl⟩
      · rw [if_neg hc]
        exact .inl ⟨_, rfl⟩
  simp only [WinMapJob.step]
  rcases two with ⟨e, h⟩ | ⟨l, hl, h⟩ <;> rw [h]
  · exact ⟨_, _, rfl, w.did _, .inl rfl, .none rfl rfl rfl rfl rfl rfl rfl rfl rfl, .inl ⟨rfl, rfl⟩, rfl, by simp [WinMapJob.rank]⟩
  · have was : WinWas (s :: H) file l := ⟨s, List.mem_cons_self, hl⟩
    simp only
    by_cases hc : (o.truncate && decide (asUsize t l > 0)) = true
    · rw [if_pos hc]
      rw [Bool.and_eq_true] at hc
      exact ⟨_, _, rfl, w.did _, ⟨rfl, hc.1, l, was⟩, .none rfl rfl rfl rfl rfl rfl rfl rfl rfl,
        .inl ⟨rfl, rfl⟩, rfl, by simp [WinMapJob.rank]⟩
    · rw [if_neg hc]
      have hn : asUsize t l = if o.truncate then 0 else l % t.lim := by
        have : asUsize t l = l % t.lim := rfl
        by_cases ht : o.truncate = true
        · rw [if_pos ht]
          simp only [ht, Bool.true_and, decide_eq_true_eq] at hc
          omega
        · rw [if_neg ht, this]
      exact ⟨_, _, rfl, w.did _, winAfter_ok was hn, .none rfl rfl rfl rfl rfl rfl rfl rfl (winAfter_has ..),
        .inl ⟨rfl, rfl⟩, rfl, Nat.le_trans (winAfter_rank ..) (by simp [WinMapJob.rank])⟩

theorem winMap_truncate (tab : SysTable) {t : Target} {s0 s : Win} (w : WinFine t s0 s) {o : Options} {file : Nat}
    {H : List Win} {b : WinMapJob} (ok : WinMapOk t s0 o file b H s .truncate) :
    ∃ s' j', WinMapJob.step tab t s o file .truncate = .ok (s', j') ∧
      WinMapOwn t s0 o file b H s s' .truncate j' := by
  obtain ⟨rfl, ht, l, hl⟩ := ok
  have was : WinWas (s :: H) file l := hl.mono fun x hx => List.mem_cons_of_mem _ hx
  simp only [WinMapJob.step]
  rcases winMap_resize tab w file (sz := 0) (by decide) (lengths_truncate ht) with
    ⟨s1, e, h, h1, h2, h3, h4, h5⟩ | ⟨s1, h, h2, h3, h4, h5⟩ <;> rw [h]
  · exact ⟨_, _, rfl, h2, .inl h1, h3 _, h4, h5, by simp [WinMapJob.rank]⟩
  · refine ⟨_, _, rfl, h2, winAfter_ok was (by rw [ht]; rfl), ?_, h4, h5,
      Nat.le_trans (winAfter_rank ..) (by simp [WinMapJob.rank])⟩
    rw [winAfter_has]
    exact h3 _

theorem winMap_sz (tab : SysTable) {t : Target} {s0 s : Win} (w : WinFine t s0 s) {o : Options} {file : Nat}
    (hfit : Fits t o) {H : List Win} {b : WinMapJob} {sz : Nat} (ok : WinMapOk t s0 o file b H s (.resize sz)) :
    ∃ s' j', WinMapJob.step tab t s o file (.resize sz) = .ok (s', j') ∧
      WinMapOwn t s0 o file b H s s' (.resize sz) j' := by
  obtain ⟨rfl, ⟨l, hl, hsz⟩, hr⟩ := ok
  have was : WinWas (s :: H) file l := hl.mono fun x hx => List.mem_cons_of_mem _ hx
  have hlt : sz < lim64 := by
    have h1 : sz < t.lim := by rw [hsz]; exact newLen_lt hfit (Nat.mod_lt _ t.lim_pos)
    have := t.lim_le_64
    omega
  simp only [WinMapJob.step]
  rcases winMap_resize tab w file hlt (lengths_resize (o := o) hr) with
    ⟨s1, e, h, h1, h2, h3, h4, h5⟩ | ⟨s1, h, h2, h3, h4, h5⟩ <;> rw [h]
  · exact ⟨_, _, rfl, h2, .inl h1, h3 _, h4, h5, by simp [WinMapJob.rank]⟩
  · exact ⟨_, _, rfl, h2, ⟨rfl, l, was, hsz⟩, h3 _, h4, h5, by simp [WinMapJob.rank]⟩

/-- A new section. -/
theorem winMap_section {t : Target} {s0 s : Win} (w : WinFine t s0 s) (file : Option Nat) (prot : WinProt) {size : Nat}
    {c : WinCall} {s' : Win} (hs : s' = { s.did c with
        handles := fun h => if h = s.next then some ⟨s.next, file, prot, size⟩ else s.handles h
        next := s.next + 1
        bytes := s.bytes.newSection s.next }) :
    WinFine t s0 s' ∧ WinMapSec s0 s' s.next ⟨s.next, file, prot, size⟩ [] ∧ s'.locked = s.locked ∧
      s'.files = s.files ∧ s'.bytes.file = s.bytes.file ∧ ∀ a a' : WinHas, a.handle = none → a'.handle = some s.next →
        a'.room = a.room → a'.bases = a.bases → WinActs a a' s s' := by
  subst hs
  refine ⟨w.section' (x := ⟨s.next, file, prot, size⟩) rfl rfl rfl rfl rfl rfl rfl, ?_, rfl, rfl, rfl, ?_⟩
  · refine ⟨rfl, w.next, by simp, by simp [WinBytes.newSection], by simp [WinBytes.newSection], ?_, by simp, ?_⟩
    · intro v hv hid
      have := (w.wf.views v hv).2
      omega
    · intro h' x hx hid
      dsimp only at hx
      split at hx
      · assumption
      · have := (w.wf.handles h' x hx).2
        omega
  · intro a a' h1 h2 h3 h4
    refine ⟨by simp, fun id hi => ?_, rfl, rfl, fun h _ hne => ?_, fun _ _ _ => .rfl, fun _ _ _ => .rfl, fun h hh => ?_,
      fun r hr => .inl (h3 ▸ hr), fun b hb => .inl (h4 ▸ hb), fun v hv hn => absurd hv hn,
      fun h hh => (by rw [h1] at hh; cases hh), fun r hr hn => absurd (h3 ▸ hr) hn, fun b hb hn => absurd (h4 ▸ hb) hn⟩
    · have : id ≠ s.next := by omega
      simp only [WinBytes.newSection, if_neg this, and_self]
    · dsimp only
      rw [if_neg]
      rintro rfl
      exact hne h2
    · rw [h2] at hh
      exact .inr (Option.some.inj hh).symm


theorem winMap_len {o : Options} {flen len : Nat} (hge : o.offset ≤ flen)
    (hml : Options.mapLen o.len (flen - o.offset) = some len) :
    InRange flen o.offset o.len ∧ len = wanted flen o.offset o.len ∧ len ≤ flen - o.offset := by
  cases hl : o.len with
  | endOf =>
    rw [hl] at hml; injection hml with hml; subst hml
    exact ⟨hge, rfl, Nat.le_refl _⟩
  | max l =>
    rw [hl] at hml; injection hml with hml; subst hml
    exact ⟨hge, rfl, Nat.min_le_right _ _⟩
  | exact l =>
    rw [hl] at hml
    simp only [Options.mapLen] at hml
    by_cases hc : l > flen - o.offset
    · rw [if_pos hc] at hml; cases hml
    · rw [if_neg hc] at hml; injection hml with hml; subst hml
      exact ⟨show o.offset + l ≤ flen by omega, rfl, by omega⟩
  | min l =>
    rw [hl] at hml
    simp only [Options.mapLen] at hml
    by_cases hc : l > flen - o.offset
    · rw [if_pos hc] at hml; cases hml
    · rw [if_neg hc] at hml; injection hml with hml; subst hml
      exact ⟨show o.offset + l ≤ flen by omega, rfl, by omega⟩

theorem winMap_none {o : Options} {flen : Nat} (hge : o.offset ≤ flen)
    (hml : Options.mapLen o.len (flen - o.offset) = none) : ¬ InRange flen o.offset o.len := by
  cases hl : o.len with
  | endOf => rw [hl] at hml; cases hml
  | max l => rw [hl] at hml; cases hml
  | exact l =>
    rw [hl] at hml
    simp only [Options.mapLen] at hml
    by_cases hc : l > flen - o.offset
    · simp only [InRange]; omega
    · rw [if_neg hc] at hml; cases hml
  | min l =>
    rw [hl] at hml
    simp only [Options.mapLen] at hml
    by_cases hc : l > flen - o.offset
    · simp only [InRange]; omega
    · rw [if_neg hc] at hml; cases hml

theorem winMap_create (tab : SysTable) {t : Target} {s0 s : Win} (w : WinFine t s0 s) {o : Options} {file : Nat}
    (hfit : Fits t o) {H : List Win} {b : WinMapJob} {flen : Nat} (ok : WinMapOk t s0 o file b H s (.create flen)) :
    ∃ s' j', WinMapJob.step tab t s o file (.create flen) = .ok (s', j') ∧
      WinMapOwn t s0 o file b H s s' (.create flen) j' := by
  obtain ⟨rfl, l, hl, hflen⟩ := ok
  have was : WinWas (s :: H) file l := hl.mono fun x hx => List.mem_cons_of_mem _ hx
  have hlt : flen < t.lim := by rw [hflen]; exact newLen_lt hfit (Nat.mod_lt _ t.lim_pos)
  have out : ¬ InRange flen o.offset o.len → WinMapOwn t s0 o file .stat H s s (.create flen) (.done (.ok none)) :=
    fun hn => ⟨w, ⟨rfl, l, was, hflen ▸ hn⟩, .none rfl rfl rfl rfl rfl rfl rfl rfl rfl, .inl ⟨rfl, rfl⟩, rfl,
      by simp [WinMapJob.rank]⟩
  simp only [WinMapJob.step]
  by_cases hc : flen < o.offset
  · rw [if_pos hc]
    refine ⟨_, _, rfl, out fun hi => ?_⟩
    revert hi
    cases o.len <;> simp only [InRange] <;> omega
  rw [if_neg hc]
  simp only [subU_ok (show o.offset ≤ flen by omega), bind, Except.bind]
  cases hml : Options.mapLen o.len (flen - o.offset) with
  | none => exact ⟨_, _, rfl, out (winMap_none (by omega) hml)⟩
  | some len =>
    obtain ⟨hin, hw, hle⟩ := winMap_len (by omega) hml
    obtain ⟨a, b, hpa, hgb, hab, hbits⟩ := w.wf.sizes
    have hgp := w.wf.gran_pos
    have hsz : s.sizeAlloc = Size.withSize (2 ^ b) := by rw [sizeAlloc, systemInfo, ← hgb]
    have hdm := Nat.div_add_mod o.offset s.gran
    rw [Nat.mul_comm] at hdm
    have hmod := Nat.mod_lt o.offset hgp
    have htr : s.sizeAlloc.truncate t o.offset = .ok (o.offset / s.gran * s.gran) := by
      rw [hsz, hgb]; exact truncate_eq (by omega) hfit.offset
    have hoff := hfit.offset
    have hd : o.offset - o.offset / s.gran * s.gran = o.offset % s.gran := by omega
    simp only [htr, subU_ok (show o.offset / s.gran * s.gran ≤ o.offset by omega), hd,
      addU_ok (show len + o.offset % s.gran < t.lim by omega)]
    rcases handleNew_cases (t := t) s .mapFileHandle (some file) (mapFileBits o.protect).1 (len := 0) t.lim_pos with
      ⟨e, h⟩ | ⟨size, -, -, h3, h⟩ <;> rw [h]
    · exact ⟨_, _, rfl, w.did _, .inr (.inl rfl), .none rfl rfl rfl rfl rfl rfl rfl rfl rfl, .inl ⟨rfl, rfl⟩, rfl,
        by simp [WinMapJob.rank]⟩
    · obtain ⟨n, hn, hn2⟩ := h3 file rfl
      obtain ⟨f1, f2, f3, f4, f5, f6⟩ := winMap_section w (some file) (mapFileBits o.protect).1 (size := size) rfl
      refine ⟨_, _, rfl, f1, ⟨⟨_, ⟨?_, rfl, mapFileBits_allows _, ?_, ?_, ?_, ?_, ?_⟩, f2⟩, fun _ => .inr (.inr rfl)⟩,
        f6 _ _ rfl rfl rfl rfl, .inl ⟨f4, f5⟩, f3, by simp [WinMapJob.rank]⟩
      · exact ⟨⟨s, List.mem_cons_self, by rw [hn2 rfl]; exact hn⟩, l, was, hflen ▸ hin, hflen ▸ hw⟩
      · simp only [winOff]; omega
      · omega
      · rw [← w.gran]; exact hmod
      · omega
      · rw [← w.gran]; exact Nat.dvd_mul_left _ _

theorem win_allocLen {t : Target} {s : Win} (w : WinWf t s) {o : Options}
    (hf : WinAllocFits t s.gran (o.offset % s.page) o.len) :
    s.sizePage.offset t o.offset = .ok (o.offset % s.page) ∧
    ∃ len, s.allocLen t o.len (o.offset % s.page) = .ok len ∧ AllocLen s.gran (o.offset % s.page) o.len len ∧
      o.offset % s.page + len < t.lim := by
  obtain ⟨a, b, hpa, hgb, hab, hbits⟩ := w.sizes
  have hpp := w.page_pos
  have hgp := w.gran_pos
  have hd := Nat.mod_lt o.offset hpp
  have hpg : s.page ≤ s.gran := Nat.le_of_dvd hgp w.page_dvd
  have hlim : 4 * s.gran ≤ t.lim := by
    rw [hgb]
    have : 2 ^ b * 2 ^ 2 = 2 ^ (b + 2) := (Nat.pow_add 2 b 2).symm
    have h2 : 2 ^ (b + 2) ≤ t.lim := Nat.pow_le_pow_right (by decide) (by omega)
    omega
  have hsp : s.sizePage = Size.withSize (2 ^ a) := by rw [sizePage, systemInfo, ← hpa]
  have hsz : s.sizeAlloc = Size.withSize (2 ^ b) := by rw [sizeAlloc, systemInfo, ← hgb]
  have hoff : s.sizePage.offset t o.offset = .ok (o.offset % s.page) := by rw [hsp, hpa]; exact offset_eq
  have hround : ∀ x, x + s.gran < t.lim → s.sizeAlloc.round t x = .ok ((x + s.gran - 1) / s.gran * s.gran) := by
    intro x hx
    rw [hsz, hgb]
    rw [hgb] at hx
    exact round_eq (by omega) hx
  refine ⟨hoff, ?_⟩
  generalize hD : o.offset % s.page = d at hf hoff hd ⊢
  cases hl : o.len with
  | endOf =>
    have hr : (d + 1 + s.gran - 1) / s.gran * s.gran = s.gran :=
      IsRoundUp.unique (isRoundUp_div hgp) ⟨Nat.dvd_refl _, by omega, fun m hm h => Nat.le_of_dvd (by omega) hm⟩
    simp only [allocLen, bind, Except.bind, addU_ok (show d + 1 < t.lim by omega), hround _ (show d + 1 + s.gran < t.lim by omega),
      hr, subU_ok (show d ≤ s.gran by omega)]
    exact ⟨_, rfl, ⟨by omega, by omega⟩, by omega⟩
  | exact l => rw [hl] at hf; exact ⟨l, rfl, rfl, hf⟩
  | max l => rw [hl] at hf; exact ⟨l, rfl, rfl, hf⟩
  | min l =>
    rw [hl] at hf
    simp only [WinAllocFits] at hf
    obtain ⟨g1, g2, g3⟩ := isRoundUp_div (u := s.gran) (len := d + l) hgp
    have g4 : (d + l + s.gran - 1) / s.gran * s.gran ≤ d + l + s.gran - 1 := Nat.div_mul_le_self _ _
    simp only [allocLen, bind, Except.bind, addU_ok (show d + l < t.lim by omega), hround _ hf]
    generalize (d + l + s.gran - 1) / s.gran * s.gran = R at g1 g2 g3 g4
    simp only [subU_ok (show d ≤ R by omega)]
    exact ⟨_, rfl, ⟨by omega, by rw [show d + (R - d) = R by omega]; exact g1, by omega⟩, by omega⟩

theorem winMap_anon (tab : SysTable) {t : Target} {s0 s : Win} (w : WinFine t s0 s) {o : Options} {file : Nat}
    (hfit : WinAllocFits t s0.gran (o.offset % s0.page) o.len) {H : List Win} {b : WinMapJob}
    (ok : WinMapOk t s0 o file b H s .anon) :
    ∃ s' j', WinMapJob.step tab t s o file .anon = .ok (s', j') ∧ WinMapOwn t s0 o file b H s s' .anon j' := by
  have hb : b = .anon := ok
  subst hb
  rw [← w.gran, ← w.page] at hfit
  obtain ⟨h1, len, h2, h3, h4⟩ := win_allocLen w.wf hfit
  simp only [WinMapJob.step, h1, h2, addU_ok h4, bind, Except.bind]
  rcases handleNew_cases (t := t) s .mapAnonymousHandle none (mapAnonBits o.protect).1 h4 with
    ⟨e, h⟩ | ⟨size, -, hsz, -, h⟩ <;> rw [h]
  · exact ⟨_, _, rfl, w.did _, .inl rfl, .none rfl rfl rfl rfl rfl rfl rfl rfl rfl, .inl ⟨rfl, rfl⟩, rfl,
      by simp [WinMapJob.rank]⟩
  · cases hsz rfl
    obtain ⟨f1, f2, f3, f4, f5, f6⟩ := winMap_section w none (mapAnonBits o.protect).1
      (size := o.offset % s.page + len) rfl
    have hd := Nat.mod_lt o.offset w.wf.page_pos
    have hpg : s.page ≤ s.gran := Nat.le_of_dvd w.wf.gran_pos w.wf.page_dvd
    refine ⟨_, _, rfl, f1, ⟨⟨_, ⟨?_, rfl, mapAnonBits_allows _, ?_, t.lim_pos, ?_, rfl, Nat.dvd_zero _⟩, f2⟩, fun _ => .inr rfl⟩,
      f6 _ _ rfl rfl rfl rfl, .inl ⟨f4, f5⟩, f3, by simp [WinMapJob.rank]⟩
    · refine ⟨?_, ?_⟩
      · rw [← w.gran, ← w.page]; exact h3
      · rw [← w.page]
    · simp only [winOff, ← w.page]; omega
    · rw [← w.gran]; omega

theorem winMap_view (tab : SysTable) {t : Target} {s0 s : Win} (w : WinFine t s0 s) {o : Options} {file : Nat}
    {H : List Win} {b : WinMapJob} {h : Nat} {op : Operation} {access : WinAccess} {off len d n : Nat}
    (ok : WinMapOk t s0 o file b H s (.view h op access off len d n)) :
    ∃ s' j', WinMapJob.step tab t s o file (.view h op access off len d n) = .ok (s', j') ∧
      WinMapOwn t s0 o file b H s s' (.view h op access off len d n) j' := by
  have sub : ∀ x, x ∈ H → x ∈ s :: H := fun x hx => List.mem_cons_of_mem _ hx
  obtain ⟨⟨sec, p, x⟩, herr⟩ := ok
  simp only [WinMapJob.step, bind, Except.bind]
  rcases view_cases s x.handle op access len 0 p.lim with
    ⟨e, h1⟩ | ⟨base, m, m0, mm, -, ho, hsz, b0, bg, lim, free, -, h1⟩ <;> rw [h1]
  · refine ⟨_, _, rfl, w.did _, ⟨⟨sec, ?_⟩, herr _⟩, .none rfl rfl rfl rfl rfl rfl rfl rfl rfl, .inl ⟨rfl, rfl⟩, rfl,
      by simp [WinMapJob.rank]⟩
    exact ⟨x.id, x.late, x.handle, x.zero, x.own, x.only, x.have', x.alone⟩
  · have fresh : ∀ v, v ∈ s.views → v.base ≠ base := by
      intro v hv e
      have := free_views w.wf.page_pos free hv
      have := (w.wf.views v hv).1
      omega
    have hr := s.roundPage_le w.wf.page_pos m
    refine ⟨_, _, rfl, ?_, ⟨sec, access, off, len, ⟨base, m, sec, off, access⟩, p.mono sub, ?_, rfl, ?_⟩, ?_,
      .inl ⟨rfl, rfl⟩, rfl, by simp [WinMapJob.rank]⟩
    · refine w.view (v := ⟨base, m, sec, off, access⟩) rfl rfl rfl rfl rfl rfl (by simp only; omega) ?_ b0 bg ho lim free
      exact (w.wf.handles h sec x.handle).2
    · refine ⟨rfl, rfl, rfl, ?_, hsz, b0, ?_, ?_⟩
      · simp only
        rw [mm]
        split <;> omega
      · rw [← w.gran]; exact Nat.dvd_of_mod_eq_zero bg
      · simp only; omega
    · refine ⟨x.id, x.late, x.handle, x.zero, x.own, fun v hv hid => ?_, fun v hv => ?_, x.alone⟩
      · rcases List.mem_cons.mp hv with rfl | hv
        · exact List.mem_cons_self
        · exact absurd (x.only v hv hid) (by simp)
      · simp only [List.mem_cons, List.not_mem_nil, or_false] at hv
        rw [hv]
        exact List.mem_cons_self
    · constructor <;> simp [WinMapJob.has, WinMapJob.handle, WinMapJob.bases, did]
      · intro v h1 h2
        rw [h2] at h1
        exact absurd rfl h1
      · exact fresh
      · exact ⟨fun _ => x.handle, fun v h1 h2 => absurd h1 h2⟩

theorem winMap_close (tab : SysTable) {t : Target} {s0 s : Win} (w : WinFine t s0 s) {o : Options} {file : Nat}
    {H : List Win} {b : WinMapJob} {h d n : Nat} {ret : Result Nat}
    (ok : WinMapOk t s0 o file b H s (.close h d n ret)) :
    ∃ s' j', WinMapJob.step tab t s o file (.close h d n ret) = .ok (s', j') ∧
      WinMapOwn t s0 o file b H s s' (.close h d n ret) j' ∧
      ∀ m, j' = .done (.ok (some m)) → ∃ v, WinFresh t s0 s' (winFileOf file b) (winOff s0.page o b) o.protect m v ∧
        m.ptr = v.base + d ∧ WinRight t s0 o file H m.len v.sec.size b := by
  have sub : ∀ x, x ∈ H → x ∈ s :: H := fun x hx => List.mem_cons_of_mem _ hx
  have lt : ∀ q x, (s.dropHandle h).handles q = some x → s.handles q = some x := by
    intro q x hx
    simp only [dropHandle, closeHandle] at hx
    split at hx
    · cases hx
    · exact hx
  have fine : WinFine t s0 (s.dropHandle h) :=
    w.less (List.Sublist.refl _) (List.Sublist.refl _) lt rfl rfl rfl
  have acts : ∀ j' : WinMapJob, j'.handle = none → j'.bases s0.gran = (WinMapJob.close h d n ret).bases s0.gran →
      WinActs ((WinMapJob.close h d n ret).has s0.gran) (j'.has s0.gran) s (s.dropHandle h) := by
    intro j' b1 hb
    have b3 : (WinMapJob.close h d n ret).handle = some h := rfl
    constructor <;> simp [WinMapJob.has, hb, b1, b3, did, dropHandle, closeHandle]
    · intro q h1 h2
      exact absurd h2.symm h1
    · exact fun b h1 => .inl h1
    · exact fun v h1 h2 => absurd h1 h2
    · exact fun b h1 h2 => absurd h1 h2
  cases ret with
  | error e =>
    obtain ⟨⟨sec, x⟩, herr⟩ := ok
    exact ⟨_, _, rfl, ⟨fine, herr, acts _ rfl rfl, .inl ⟨rfl, rfl⟩, rfl, by simp [WinMapJob.rank]⟩,
      fun m hm => by cases hm⟩
  | ok ptr =>
    obtain ⟨sec, access, off, len, v, p, g, rfl, x⟩ := ok
    have hw := p.whole
    have hl := g.len'
    have hlim := g.lim
    have hsm := p.small
    have hptr : ptrAdd t v.base d = v.base + d := ptrAdd_ok (by omega)
    have hgp : 0 < s0.gran := by rw [← w.gran]; exact w.wf.gran_pos
    have hbase : (v.base + d) / s0.gran * s0.gran = v.base := by
      obtain ⟨c, hc⟩ := g.dvd
      rw [hc, Nat.mul_add_div hgp, Nat.div_eq_of_lt hsm, Nat.add_zero, Nat.mul_comm]
    refine ⟨_, _, rfl, ⟨fine, ?_, acts _ rfl ?_, .inl ⟨rfl, rfl⟩, rfl, by simp [WinMapJob.rank]⟩, ?_⟩
    · simp only [WinMapJob.finish, MapMut.fromPtr, hptr]
      exact ⟨⟨_, p.right.mono sub⟩, v, x.have' v List.mem_cons_self, hbase.symm⟩
    · simp only [WinMapJob.finish, MapMut.fromPtr, hptr, WinMapJob.bases, hbase]
    · intro m hm
      simp only [WinMapJob.finish, MapMut.fromPtr, hptr] at hm
      injection hm with hm
      injection hm with hm
      injection hm with hm
      subst hm
      have hs := g.sec'
      have hst := p.start
      have hvs := x.have' v List.mem_cons_self
      have hid := x.id
      refine ⟨v, ⟨hvs, ?_, ?_, ?_, ?_, ?_, g.dvd, ?_, ?_, ?_, ?_⟩, rfl, ?_⟩
      · intro y hy hyid
        have := x.only y hy (by rw [hyid, hs, hid])
        simpa using this
      · intro q y hy hyid
        have := x.alone q y (lt q y hy) (by rw [hyid, hs, hid])
        subst this
        simp only [dropHandle, closeHandle, if_pos] at hy
        cases hy
      · rw [hs]
        exact ⟨by rw [hid]; exact x.late, p.file'⟩
      · rw [g.access']; exact p.allows
      · simp only
        exact ⟨g.ne, by omega, by omega, by omega, g.lim⟩
      · intro i hi
        simp only at hi
        have look := fine.laid.look (v := v) hvs (a := v.base + d + i) (by omega)
        unfold Win.look at look
        simp only [winShows, look, Option.map, g.off']
        congr 2
        omega
      · have := g.fits
        rw [hs]
        simp only
        omega
      · rw [hs, hid]; exact x.zero
      · rw [hs, hid]; exact x.own
      · rw [hs]; exact p.right

/-- One system call of `map_if` or `alloc`. -/
theorem winMap_step (tab : SysTable) {t : Target} {s0 s : Win} (w : WinFine t s0 s) {o : Options} {file : Nat}
    {b : WinMapJob} (hfit : WinBegins t s0 o b) {H : List Win} {j : WinMapJob} (ok : WinMapOk t s0 o file b H s j) :
    ∃ s' j', j.step tab t s o file = .ok (s', j') ∧ WinMapOwn t s0 o file b H s s' j j' := by
  cases j with
  | stat => exact winMap_stat tab w ok
  | truncate => exact winMap_truncate tab w ok
  | resize sz =>
    have hb := ok.1
    subst hb
    exact winMap_sz tab w hfit ok
  | create flen =>
    have hb := ok.1
    subst hb
    exact winMap_create tab w hfit ok
  | anon =>
    have hb : b = .anon := ok
    subst hb
    exact winMap_anon tab w hfit ok
  | view h op access off len d n => exact winMap_view tab w ok
  | close h d n ret =>
    obtain ⟨s', j', h1, h2, -⟩ := winMap_close tab w ok
    exact ⟨s', j', h1, h2⟩
  | done ret =>
    have sub : ∀ x, x ∈ H → x ∈ s :: H := fun x hx => List.mem_cons_of_mem _ hx
    refine ⟨_, _, rfl, w, ?_, .none rfl rfl rfl rfl rfl rfl rfl rfl rfl, .inl ⟨rfl, rfl⟩, rfl, by simp [WinMapJob.rank]⟩
    match ret, ok with
    | .ok none, ⟨h1, l, h2, h3⟩ => exact ⟨h1, l, h2.mono sub, h3⟩
    | .ok (some m), ⟨⟨size, h1⟩, v, h2, h3⟩ => exact ⟨⟨size, h1.mono sub⟩, v, h2, h3⟩
    | .error e, ok => exact ok

/-- What is known wherever a call has got to. -/
structure WinMapNow (t : Target) (s0 : Win) (o : Options) (file : Nat) (b : WinMapJob) (n : Nat) (H : List Win) (s : Win)
    (j : WinMapJob) : Prop where
  fine : WinFine t s0 s
  ok : WinMapOk t s0 o file b H s j
  rank : j.rank ≤ b.rank - n

theorem winMapRun_now {tab : SysTable} {t : Target} {s0 : Win} (wf : WinWf t s0) (laid : WinLaid t s0)
    (space : WinRoom s0) {o : Options} {file : Nat} {b : WinMapJob} (hfit : WinBegins t s0 o b) {n : Nat}
    {H : List Win} {s : Win} {j : WinMapJob} (run : WinMapRun tab t o file b s0 n H s j) :
    WinMapNow t s0 o file b n H s j := by
  induction run with
  | start =>
    refine ⟨⟨wf, laid, space, rfl, rfl, Nat.le_refl _⟩, ?_, Nat.le_refl _⟩
    cases b with
    | stat => exact rfl
    | anon => exact rfl
    | _ => exact hfit.elim
  | own before step ih =>
    obtain ⟨s', j', h1, h2⟩ := winMap_step tab ih.fine hfit ih.ok
    rw [step] at h1
    cases h1
    have := ih.rank
    have := h2.rank
    exact ⟨h2.fine, h2.ok, by omega⟩
  | other before what ih => exact ⟨ih.fine.around what, ih.ok.other what, ih.rank⟩

/-- A call returns a map only when it closes its handle. -/
theorem winMap_ends {tab : SysTable} {t : Target} {s s' : Win} {o : Options} {file : Nat} {j : WinMapJob}
    {r : Result (Option MapMut)} (step : j.step tab t s o file = .ok (s', .done r)) (nd : ∀ x, j ≠ .done x) :
    (∃ h d n x, j = .close h d n x ∧ r = WinMapJob.finish t d n x) ∨ (j.handle = none ∧ ∀ m, r ≠ .ok (some m)) := by
  have after : ∀ n, WinMapJob.afterTruncate o n ≠ .done r := by
    intro n h
    unfold WinMapJob.afterTruncate at h
    cases hr : o.resize <;> rw [hr] at h <;> simp only at h <;> (try split at h) <;> cases h
  cases j with
  | done x => exact absurd rfl (nd x)
  | close h d n x => cases step; exact .inl ⟨h, d, n, x, rfl, rfl⟩
  | view h op access off len d n =>
    simp only [WinMapJob.step, bind, Except.bind] at step
    split at step <;> cases step
  | stat =>
    refine .inr ⟨rfl, fun m hm => ?_⟩
    subst hm
    simp only [WinMapJob.step] at step
    split at step
    · cases step
    · split at step
      · cases step
      · injection step with step
        injection step with _ h
        exact after _ h
  | truncate =>
    refine .inr ⟨rfl, fun m hm => ?_⟩
    subst hm
    simp only [WinMapJob.step] at step
    split at step
    · cases step
    · injection step with step
      injection step with _ h
      exact after _ h
  | resize sz =>
    refine .inr ⟨rfl, fun m hm => ?_⟩
    subst hm
    simp only [WinMapJob.step] at step
    split at step <;> cases step
  | create flen =>
    refine .inr ⟨rfl, fun m hm => ?_⟩
    subst hm
    simp only [WinMapJob.step, bind, Except.bind, pure, Except.pure] at step
    (repeat' split at step) <;> cases step
  | anon =>
    refine .inr ⟨rfl, fun m hm => ?_⟩
    subst hm
    simp only [WinMapJob.step, bind, Except.bind, pure, Except.pure] at step
    (repeat' split at step) <;> cases step

end Vmap
