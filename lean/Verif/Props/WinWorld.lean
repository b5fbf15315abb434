import Verif.Proofs.WinWorldStep
import Verif.Props.Exact
/-
Property theorems C105–C108: whole programs on Windows, and `map_if` there.
-/
namespace Vmap
open Spec

/-! ### C105 -/

/-- C105, memory: in every state that a program can reach, the open handles and reserved ranges are
those it started with; every map has its view and every ring its two halves; what was mapped at
the start is still there and belongs to nothing the program holds; every view was there at the
start, or belongs to something the program holds, or is that of an empty map that was dropped —
exactly one of these. -/
theorem C105_views {tab : SysTable} {t : Target} {s0 : Vmap.Win} (wf : WinWf t s0) (laid : WinLaid t s0)
    {w : WinWorld} (h : WinReach tab t s0 w) :
    w.s.handles = s0.handles ∧ w.s.reserved = s0.reserved ∧
    (∀ i x, w.held i = some x → WinHandle.There s0.gran w.s.views x) ∧
    (∀ v, v ∈ s0.views → v ∈ w.s.views ∧ ∀ i x, w.held i = some x → ¬ WinHandle.Owns s0.gran x v) ∧
    (∀ v, v ∈ w.s.views → v ∈ s0.views ∨ (∃ i x, w.held i = some x ∧ WinHandle.Owns s0.gran x v) ∨
      ∃ m, m ∈ w.empties ∧ MapView s0.gran m v) ∧
    (∀ v, v ∈ w.s.views → ∀ i j x y, w.held i = some x → w.held j = some y →
      WinHandle.Owns s0.gran x v → WinHandle.Owns s0.gran y v → i = j) ∧
    (∀ m, m ∈ w.empties → m.len = 0 ∧ ∃ v, v ∈ w.s.views ∧ MapView s0.gran m v ∧ v ∉ s0.views ∧
      ∀ i x, w.held i = some x → ¬ WinHandle.Owns s0.gran x v) := by
  have v := h.inv wf laid
  refine ⟨v.keeps.handles, v.keeps.reserved, v.there, fun x hx => ⟨v.base x hx, fun i g hg => v.oneStart i g x hx hg⟩,
    v.all, fun x hx i j g g' hi hj o o' => v.one i j g g' x hx hi hj o o', fun m hm => ?_⟩
  obtain ⟨h1, x, hx, hm'⟩ := v.left m hm
  obtain ⟨h2, h3⟩ := v.oneLeft m x hm hx hm'
  exact ⟨h1, x, hx, hm', h2, h3⟩

/-- An address of something held lies in a view of it. -/
theorem has_view {u : Nat} {vs : List WinView} {x : WinHandle} (there : WinHandle.There u vs x) {a : Nat}
    (h : WinHandle.Has x a) : ∃ v, v ∈ vs ∧ WinHandle.Owns u x v ∧ v.base ≤ a ∧ a < v.base + v.len := by
  have ring : ∀ ptr len, ptr ≤ a ∧ a < ptr + 2 * len →
      (∃ v1 v2, v1 ∈ vs ∧ v2 ∈ vs ∧ v1.base = ptr ∧ v2.base = ptr + len ∧ v1.len = len ∧ v2.len = len ∧ 0 < len ∧
        v1.sec = v2.sec ∧ v1.off = 0 ∧ v2.off = 0 ∧ v1.access = { read := true, write := true } ∧
        v2.access = { read := true, write := true }) →
      ∃ v, v ∈ vs ∧ RingView ptr len v ∧ v.base ≤ a ∧ a < v.base + v.len := by
    rintro ptr len ha ⟨v1, v2, m1, m2, b1, b2, l1, l2, -⟩
    by_cases hc : a < ptr + len
    · exact ⟨v1, m1, ⟨.inl b1, l1⟩, by omega, by omega⟩
    · exact ⟨v2, m2, ⟨.inr b2, l2⟩, by omega, by omega⟩
  cases x with
  | map m =>
    obtain ⟨v, hv, mv⟩ := there
    simp only [WinHandle.Has] at h
    exact ⟨v, hv, mv, by have := mv.2.1; omega, by have := mv.2.2.2; omega⟩
  | ring r => exact ring _ _ h there
  | inf r => exact ring _ _ h there

/-- C105, addresses: no address belongs to two of the maps and rings a program holds, and none to what
was mapped when it started. -/
theorem C105_disjoint {tab : SysTable} {t : Target} {s0 : Vmap.Win} (wf : WinWf t s0) (laid : WinLaid t s0)
    {w : WinWorld} (h : WinReach tab t s0 w) (a : Nat) :
    (∀ i j x y, i ≠ j → w.held i = some x → w.held j = some y → ¬ (WinHandle.Has x a ∧ WinHandle.Has y a)) ∧
    (∀ i x, w.held i = some x → WinHandle.Has x a → winShows s0 a = none) := by
  have v := h.inv wf laid
  constructor
  · rintro i j x y hij hx hy ⟨hax, hay⟩
    obtain ⟨p, hp, op, p1, p2⟩ := has_view (v.there i x hx) hax
    obtain ⟨q, hq, oq, q1, q2⟩ := has_view (v.there j y hy) hay
    have := v.laid.addr_inj hp hq ⟨p1, p2⟩ ⟨q1, q2⟩
    subst this
    exact hij (v.one i j x y p hp hx hy op oq)
  · intro i x hx ha
    obtain ⟨p, hp, op, p1, p2⟩ := has_view (v.there i x hx) ha
    apply Win.shows_none
    intro q hq hc
    have := v.laid.addr_inj hp (v.base q hq) ⟨p1, p2⟩ hc
    subst this
    exact v.oneStart i x p hq hx op

/-- C105 in full, at the end: once everything has been dropped, exactly the views are there that were
there at the start.  False of the code, because of empty maps: `C105_full_false`. -/
def C105_full : Prop :=
  ∀ (tab : SysTable) (t : Target) (s0 : Vmap.Win) (w : WinWorld), WinWf t s0 → WinLaid t s0 →
    WinReach tab t s0 w → (∀ i, w.held i = none) → w.s.views.Perm s0.views

theorem views_nodup {t : Target} {s : Vmap.Win} (l : WinLaid t s) : s.views.Nodup := by
  refine l.apart.imp_of_mem ?_
  intro a b ha hb h hab
  subst hab
  have := (l.inside a ha).1
  obtain ⟨p, q, hp, -⟩ := l.sizes
  have := s.roundPage_le (by rw [hp]; exact Nat.two_pow_pos p) a.len
  omega

/-- C105 at the end, for programs that drop no empty map: once everything has been dropped, exactly
the views are there that were there at the start.  (Missing: programs that drop empty maps.) -/
theorem C105_all_dropped_partial {tab : SysTable} {t : Target} {s0 : Vmap.Win} (wf : WinWf t s0)
    (laid : WinLaid t s0) {w : WinWorld} (h : WinReach tab t s0 w) (hall : ∀ i, w.held i = none)
    (he : w.empties = []) : w.s.views.Perm s0.views := by
  have v := h.inv wf laid
  refine (List.perm_ext_iff_of_nodup (views_nodup v.laid) (views_nodup laid)).mpr fun x => ⟨fun hx => ?_, v.base x⟩
  rcases v.all x hx with h1 | ⟨i, g, h1, -⟩ | ⟨m, hm, -⟩
  · exact h1
  · rw [hall i] at h1; cases h1
  · rw [he] at hm; cases hm

/-- A program on the example process: it makes a ring, maps five bytes of the file from offset 70 000,
allocates a page, and drops the ring. -/
def winProg : List WinOp :=
  [.newRing 1, .mapIf ((Options.new.setOffset 70000).setLen (.exact 5)) 7, .alloc (Options.new.setLen (.exact 4096)),
    .drop 0]

/-- A program run to its end. -/
def WinWorld.all (tab : SysTable) (t : Target) (w : WinWorld) : List WinOp → Exec WinWorld
  | [] => .ok w
  | op :: ops => do (← w.step tab t op).all tab t ops

theorem all_reach {tab : SysTable} {t : Target} {s0 : Vmap.Win} : ∀ {ops : List WinOp} {w w' : WinWorld},
    WinReach tab t s0 w → (∀ op, op ∈ ops → ∀ w, w.s.page = s0.page → w.s.gran = s0.gran → op.Sane t w) →
    WinWf t s0 → WinLaid t s0 → w.all tab t ops = .ok w' → WinReach tab t s0 w' := by
  intro ops
  induction ops with
  | nil => intro w w' h _ _ _ e; cases e; exact h
  | cons op ops ih =>
    intro w w' h sane wf laid e
    simp only [WinWorld.all, bind, Except.bind] at e
    split at e
    · cases e
    · rename_i w1 h1
      have k := (h.inv wf laid).keeps
      exact ih (.step h (sane op List.mem_cons_self w k.page k.gran) h1)
        (fun o ho => sane o (List.mem_cons_of_mem _ ho)) wf laid e

theorem all_append {tab : SysTable} {t : Target} (b : List WinOp) : ∀ (a : List WinOp) (w : WinWorld),
    w.all tab t (a ++ b) = (w.all tab t a).bind (fun w => w.all tab t b) := by
  intro a
  induction a with
  | nil => intro w; rfl
  | cons op a ih =>
    intro w
    simp only [List.cons_append, WinWorld.all, bind]
    cases w.step tab t op with
    | error e => rfl
    | ok w' => exact ih w'

/-- The system errors of the examples. -/
def winTab : SysTable := ⟨fun _ => .other 0, fun _ => ""⟩

theorem winProg_sane : ∀ op, op ∈ winProg → ∀ w : WinWorld, w.s.page = (winDemo []).page →
    w.s.gran = (winDemo []).gran → op.Sane ⟨.w64, true⟩ w := by
  intro op h w hp hg
  simp only [winProg, List.mem_cons, List.not_mem_nil, or_false] at h
  rcases h with rfl | rfl | rfl | rfl
  · simp only [WinOp.Sane, hg]; decide
  · exact ⟨trivial, show (5 : Nat) < _ by decide, show (70000 : Nat) < _ by decide⟩
  · exact show 0 % w.s.page + 4096 < _ by rw [hp]; decide
  · trivial

theorem of_run {α : Type} {e : Exec WinWorld} {f : WinWorld → α} {a : α} (h : e.map f = .ok a) :
    ∃ w, e = .ok w ∧ f w = a := by
  cases e with
  | error x => cases h
  | ok w => injection h with h; exact ⟨w, rfl, h⟩

/-- A state in numbers: the next handle, the views, and the first three handles. -/
def WinWorld.sum (w : WinWorld) : Nat × List (Nat × Nat) × List (Option (Nat × Nat)) :=
  (w.next, w.s.views.map (fun v => (v.base, v.len)), [0, 1, 2].map fun i => match w.held i with
    | some (.map m) => some (m.ptr, m.len)
    | some (.ring r) => some (r.ptr, r.len)
    | some (.inf r) => some (r.ptr, r.len)
    | none => none)

/-- Non-vacuity: the program reaches a state in which it holds two maps. -/
example : WinWf ⟨.w64, true⟩ (winDemo []) ∧ WinLaid ⟨.w64, true⟩ (winDemo []) ∧
    ∃ w, WinReach winTab ⟨.w64, true⟩ (winDemo []) w ∧
    w.sum = (3, [(78643200, 4096), (75497472, 4469)], [none, some (75501936, 5), some (78643200, 4096)]) := by
  refine ⟨winDemo_wf [], winDemo_laid [], ?_⟩
  obtain ⟨w, h1, h2⟩ := of_run (e := (WinWorld.start (winDemo [])).all winTab ⟨.w64, true⟩ winProg) (f := WinWorld.sum)
    (a := (3, [(78643200, 4096), (75497472, 4469)], [none, some (75501936, 5), some (78643200, 4096)]))
    (by decide +kernel)
  exact ⟨w, all_reach .start winProg_sane (winDemo_wf []) (winDemo_laid []) h1, h2⟩

/-- C105 is false at the end: a program that maps nothing of a file and drops the map leaves a view. -/
theorem C105_full_false : ¬ C105_full := by
  intro h
  obtain ⟨w, h1, h2⟩ := of_run (e := (WinWorld.start (winDemo [])).all winTab ⟨.w64, true⟩
      [.mapIf (Options.new.setLen (.exact 0)) 7, .drop 0]) (f := WinWorld.sum)
    (a := (1, [(69206016, 100000)], [none, none, none])) (by decide +kernel)
  have hr : WinReach winTab ⟨.w64, true⟩ (winDemo []) w := by
    refine all_reach .start ?_ (winDemo_wf []) (winDemo_laid []) h1
    intro op ho w hp hg
    simp only [List.mem_cons, List.not_mem_nil, or_false] at ho
    rcases ho with rfl | rfl
    · exact ⟨trivial, show (0 : Nat) < _ by decide, show (0 : Nat) < _ by decide⟩
    · trivial
  have hw : ∀ i, w.held i = none := by
    intro i
    simp only [WinWorld.sum, List.map_cons, List.map_nil, Prod.mk.injEq] at h2
    by_cases hi : i = 0
    · subst hi
      have h3 := (List.cons.inj h2.2.2).1
      cases hc : w.held 0 with
      | none => rfl
      | some x => rw [hc] at h3; cases x <;> cases h3
    · exact (hr.inv (winDemo_wf []) (winDemo_laid [])).next i (by omega)
  have := (h _ _ _ w (winDemo_wf []) (winDemo_laid []) hr hw).length_eq
  have h3 := congrArg (fun x => x.2.1.length) h2
  simp only [WinWorld.sum, List.length_map] at h3
  rw [h3] at this
  cases this

/-! ### C106 -/

/-- C106: `map_if` on Windows.  It never panics and leaves no handle open and nothing reserved; other
files keep their length.  A map means: the range was inside the file after truncating and
resizing, the map has the wanted length and shows the wanted bytes of the file with the wanted
access, and the file has the length asked for.  No map without an error means that the range was
not inside the file.  An error names the step that failed, and nothing was mapped.
(`n % t.lim` is the length as the code sees it; it is `n` for files shorter than the address
space: `C106_small`.) -/
theorem C106_map_if (tab : SysTable) {t : Target} {s : Vmap.Win} (wf : WinWf t s) {o : Options} (hf : Fits t o)
    (file : Nat) :
    ∃ s' r, s.mapIf tab t o file = .ok (s', r) ∧ WinWf t s' ∧
      (s'.handles = s.handles ∧ s'.reserved = s.reserved ∧ s'.page = s.page ∧ s'.gran = s.gran) ∧
      (∀ f, f ≠ file → s'.files f = s.files f) ∧
      (∀ x, r = .ok x → ∃ n, s.files file = some n ∧
        s'.files file = some (leftLen o.truncate o.resize n (n % t.lim)) ∧
        (x = none ↔ ¬ InRange (newLen o.truncate o.resize (n % t.lim)) o.offset o.len) ∧
        (x = none → s'.views = s.views) ∧
        ∀ m, x = some m → m.len = wanted (newLen o.truncate o.resize (n % t.lim)) o.offset o.len ∧
          ∃ v, WinMap t s s' m (some file) o.offset o.protect v) ∧
      (∀ e, r = .error e → s'.views = s.views ∧
        ((∃ code, e = Error.io .mapFile (SysError.toIo tab (.os code)) ∧
            (s'.files = s.files ∨ o.truncate = true ∧ s'.files file = some 0)) ∨
          ∃ code n, s.files file = some n ∧
            s'.files file = some (leftLen o.truncate o.resize n (n % t.lim)) ∧
            InRange (newLen o.truncate o.resize (n % t.lim)) o.offset o.len ∧
            (e = Error.lastOsError .mapFileHandle code ∨ e = Error.lastOsError .mapFileView code))) := by
  rcases win_mapIf_sized tab s hf file with ⟨s1, code, eq, q, hfl⟩ | ⟨s1, n, hn, eq, q, hfl, fits⟩
  · refine ⟨s1, _, eq, q.wf wf, ⟨q.keeps.handles, q.keeps.reserved, q.keeps.page, q.keeps.gran⟩, ?_,
      fun _ h => (nomatch h), ?_⟩
    · intro f hne
      rcases hfl with ⟨h, -⟩ | ⟨-, h⟩
      · rw [h]
      · exact h.lens f hne
    · intro e he
      injection he with he
      refine ⟨q.views, .inl ⟨code, he.symm, ?_⟩⟩
      rcases hfl with ⟨h, -⟩ | ⟨h, h'⟩
      · exact .inl h
      · exact .inr ⟨h, h'.len⟩
  · obtain ⟨s2, r, g1, g2, g3, g4, g5, g6⟩ := C81_map_partial t (q.wf wf) hf (file := file) fits
    have hk := q.keeps.trans (WinRest.keeps g2)
    refine ⟨s2, r, eq.trans g1, g3, ⟨hk.handles, hk.reserved, hk.page, hk.gran⟩, ?_, ?_, ?_⟩
    · intro f hne
      rw [g2.files]; exact hfl.lens f hne
    · intro x hx
      refine ⟨n, hn, by rw [g2.files]; exact hfl.len, ?_, ?_, ?_⟩
      · cases x with
        | none => exact ⟨fun _ => (g5 hx).1, fun _ => rfl⟩
        | some m => exact ⟨fun h => (nomatch h), fun h => absurd (g4 m hx).1 h⟩
      · rintro rfl
        rw [(g5 hx).2]; exact q.views
      · rintro m rfl
        obtain ⟨-, h2, ⟨v, hv⟩, -⟩ := g4 m hx
        exact ⟨h2, v, WinMap.from q hv⟩
    · intro e he
      obtain ⟨h1, h3, code, h2⟩ := g6 e he
      exact ⟨h1.trans q.views, .inr ⟨code, n, hn, by rw [g2.files]; exact hfl.len, h3, h2⟩⟩

/-- For files shorter than the address space the length seen is the length, and the file ends up with
the length asked for. -/
theorem C106_small {t : Target} (trunc : Bool) (resize : Extent) {n : Nat} (h : n < t.lim) :
    n % t.lim = n ∧ leftLen trunc resize n (n % t.lim) = newLen trunc resize n := by
  rw [Nat.mod_eq_of_lt h]
  exact ⟨rfl, C35_left_small trunc resize n⟩

/-- `Options::map` is `map_if` with an error for ranges that are not inside the file. -/
theorem C106_map (tab : SysTable) {t : Target} {s s' : Vmap.Win} {o : Options} {file : Nat}
    {r : Result (Option MapMut)} (h : s.mapIf tab t o file = .ok (s', r)) :
    s.map tab t o file = .ok (s', match r with
      | .error e => .error e
      | .ok none => .error (Error.input .mapFile .invalidRange)
      | .ok (some m) => .ok m) := by
  simp only [Win.map, h, bind, Except.bind]
  cases r with
  | error e => rfl
  | ok x => cases x <;> rfl

/-- Non-vacuity: growing the example file to 200 000 bytes and mapping from byte 131 172 to its end;
asking for more than there is; and a failing third call. -/
example :
    ((winDemo []).mapIf winTab ⟨.w64, true⟩ ((Options.new.setResize (.exact 200000)).setOffset 131172) 7).map
      (fun x => (x.2, x.1.files 7, x.1.views.map (fun v => (v.base, v.len, v.off)))) =
      .ok (.ok (some ⟨70254692, 68828⟩), some 200000, [(70254592, 68928, 131072)]) ∧
    ((winDemo []).mapIf winTab ⟨.w64, true⟩ (Options.new.setLen (.exact 100001)) 7).map
      (fun x => (x.2, x.1.files 7, x.1.views.length)) = .ok (.ok none, some 100000, 0) ∧
    ((winDemo [2]).mapIf winTab ⟨.w64, true⟩ (Options.new.setResize (.exact 200000)) 7).map
      (fun x => (x.2, x.1.files 7, x.1.views.length)) =
      .ok (.error (Error.lastOsError .mapFileHandle 5), some 200000, 0) := by
  refine ⟨?_, ?_, ?_⟩ <;> decide +kernel

/-! ### C107 -/

/-- C107: as long as a program holds a map or ring, it is the same one, in the same place, and each of
its addresses shows the same byte of the same section with the same access — whatever else the
program does. -/
theorem C107_kept {tab : SysTable} {t : Target} {s0 : Vmap.Win} (wf : WinWf t s0) (laid : WinLaid t s0)
    {w w' : WinWorld} (h : WinReach tab t s0 w) (l : WinLater tab t w w') {i : Nat} {x y : WinHandle}
    (hx : w.held i = some x) (hy : w'.held i = some y) :
    WinHandle.Same x y ∧ ∀ a, WinHandle.Has x a → winSees w.s a ≠ none ∧ winSees w'.s a = winSees w.s a := by
  have v := h.inv wf laid
  have v' := (h.later l).inv wf laid
  have kept : WinKept s0.gran w w' := by
    clear hy v'
    induction l with
    | refl => exact .refl _ _
    | step before sane st ih => exact ih.trans (((h.later before).inv wf laid).step sane st).kept
  have hi : i < w.next := by
    apply Decidable.byContradiction
    intro hc
    rw [v.next i (by omega)] at hx
    cases hx
  rcases kept.held i hi with h1 | ⟨x', y', h1, h2, h3, h4⟩
  · rw [h1] at hy; cases hy
  · rw [hx] at h1
    rw [hy] at h2
    cases h1
    cases h2
    refine ⟨h3, fun a ha => ?_⟩
    obtain ⟨p, hp, op, p1, p2⟩ := has_view (v.there i x hx) ha
    rw [v.laid.sees hp ⟨p1, p2⟩, v'.laid.sees (h4 p hp op) ⟨p1, p2⟩]
    exact ⟨nofun, rfl⟩

/-- What a new map's addresses show. -/
theorem WinMap.sees {t : Target} {s s' : Vmap.Win} (laid : WinLaid t s') {m : MapMut} {file : Option Nat} {off : Nat}
    {prot : Protect} {v : WinView} (h : WinMap t s s' m file off prot v) {i : Nat} (hi : i < m.len) :
    winSees s' (m.ptr + i) = some (v.sec, off + i, v.access) := by
  have hv : v ∈ s'.views := by rw [h.views]; exact List.mem_cons_self
  obtain ⟨i1, i2, -, -⟩ := h.inside
  rw [laid.sees hv (by omega)]
  have h1 := h.bytes i hi
  rw [Win.shows_cons h.views (by omega)] at h1
  simp only [Option.some.injEq, Prod.mk.injEq, true_and] at h1
  rw [h1]

/-- C107, files: from when `map_if` returns a map until it is dropped, its byte `i` is byte
`offset + i` of the file, with the access asked for. -/
theorem C107_file {tab : SysTable} {t : Target} {s0 : Vmap.Win} (wf : WinWf t s0) (laid : WinLaid t s0)
    {w w' : WinWorld} (h : WinReach tab t s0 w) {o : Options} (hf : Fits t o) {file : Nat} {s' : Vmap.Win} {m : MapMut}
    (made : w.s.mapIf tab t o file = .ok (s', .ok (some m))) (l : WinLater tab t (w.put s' (.map m)) w')
    {x : WinHandle} (hx : w'.held w.next = some x) :
    x = .map m ∧ ∀ i, i < m.len → ∃ sec acc, winSees w'.s (m.ptr + i) = some (sec, o.offset + i, acc) ∧
      sec.file = some file ∧ WinAllows o.protect acc := by
  have hr : WinReach tab t s0 (w.put s' (.map m)) := .step (op := .mapIf o file) h hf
    (by simp only [WinWorld.step, made, bind, Except.bind]; rfl)
  have hm : (w.put s' (.map m)).held w.next = some (.map m) := by simp [WinWorld.put]
  obtain ⟨h1, h2⟩ := C107_kept wf laid hr l hm hx
  obtain ⟨s1, r, g1, -, -, -, g2, -⟩ := C106_map_if tab (h.inv wf laid).wf hf file
  rw [made] at g1
  cases g1
  obtain ⟨n, -, -, -, -, g3⟩ := g2 _ rfl
  obtain ⟨-, v, hv⟩ := g3 m rfl
  refine ⟨?_, fun i hi => ⟨v.sec, v.access, ?_, hv.sec.2, hv.access⟩⟩
  · cases x <;> simp only [WinHandle.Same] at h1
    rw [h1]
  · rw [(h2 (m.ptr + i) ⟨by omega, by omega⟩).2]
    exact WinMap.sees (hr.inv wf laid).laid hv hi

/-- C107, memory: from when `alloc` returns a map until it is dropped, its bytes are consecutive bytes
of memory that belongs to no file, with the access asked for. -/
theorem C107_memory {tab : SysTable} {t : Target} {s0 : Vmap.Win} (wf : WinWf t s0) (laid : WinLaid t s0)
    {w w' : WinWorld} (h : WinReach tab t s0 w) {o : Options}
    (hf : WinAllocFits t w.s.gran (o.offset % w.s.page) o.len) {s' : Vmap.Win} {m : MapMut}
    (made : w.s.alloc t o = .ok (s', .ok m)) (l : WinLater tab t (w.put s' (.map m)) w')
    {x : WinHandle} (hx : w'.held w.next = some x) :
    x = .map m ∧ ∃ sec acc, sec.file = none ∧ w.s.next ≤ sec.id ∧ WinAllows o.protect acc ∧
      ∀ i, i < m.len → winSees w'.s (m.ptr + i) = some (sec, o.offset % s0.page + i, acc) := by
  have hr : WinReach tab t s0 (w.put s' (.map m)) := .step (op := .alloc o) h hf
    (by simp only [WinWorld.step, made, bind, Except.bind]; rfl)
  have hm : (w.put s' (.map m)).held w.next = some (.map m) := by simp [WinWorld.put]
  obtain ⟨h1, h2⟩ := C107_kept wf laid hr l hm hx
  obtain ⟨s1, r, g1, -, -, g2, -⟩ := C81_alloc_partial t (h.inv wf laid).wf hf
  rw [made] at g1
  cases g1
  obtain ⟨-, -, ⟨v, hv⟩, -⟩ := g2 m rfl
  refine ⟨?_, v.sec, v.access, hv.sec.2, hv.sec.1, hv.access, fun i hi => ?_⟩
  · cases x <;> simp only [WinHandle.Same] at h1
    rw [h1]
  · rw [(h2 (m.ptr + i) ⟨by omega, by omega⟩).2, ← (h.inv wf laid).keeps.page]
    exact WinMap.sees (hr.inv wf laid).laid hv hi

/-- C107, own memory: what an address of a map or ring shows is shown by no other map or ring that the
program holds, and a map shows it once.  (Two maps of one file have different sections; that both
then have the file's bytes is Windows' part.) -/
theorem C107_own {tab : SysTable} {t : Target} {s0 : Vmap.Win} (wf : WinWf t s0) (laid : WinLaid t s0)
    {w : WinWorld} (h : WinReach tab t s0 w) {i j : Nat} {x y : WinHandle} (hx : w.held i = some x)
    (hy : w.held j = some y) {a b : Nat} (ha : WinHandle.Has x a) (hb : WinHandle.Has y b)
    {sec sec' : Section} {n n' : Nat} {acc acc' : WinAccess} (ea : winSees w.s a = some (sec, n, acc))
    (eb : winSees w.s b = some (sec', n', acc')) (same : sec'.id = sec.id) :
    i = j ∧ ∀ m, x = .map m → n' = n → a = b := by
  have v := h.inv wf laid
  obtain ⟨p, hp, op, p1, p2⟩ := has_view (v.there i x hx) ha
  obtain ⟨q, hq, oq, q1, q2⟩ := has_view (v.there j y hy) hb
  rw [v.laid.sees hp ⟨p1, p2⟩] at ea
  rw [v.laid.sees hq ⟨q1, q2⟩] at eb
  simp only [Option.some.injEq, Prod.mk.injEq] at ea eb
  have oq' := v.sole i x p q hx hp hq op (by rw [ea.1, eb.1]; exact same)
  refine ⟨v.one i j x y q hq hx hy oq' oq, fun m hm hn => ?_⟩
  subst hm
  have := v.laid.base_inj hp hq (win_mapView_base op oq')
  subst this
  omega

/-- C107, rings: as long as a program holds a ring, its memory is circular in every possible memory of
the process: the second half is the first half again, readable and writable, and nothing outside
the ring shows it.  All theorems about rings (C07–C14, C18–C21, …) rest on this. -/
theorem C107_ring {tab : SysTable} {t : Target} {s0 : Vmap.Win} (wf : WinWf t s0) (laid : WinLaid t s0)
    {w : WinWorld} (h : WinReach tab t s0 w) {i ptr len : Nat}
    (hx : (∃ r, w.held i = some (.ring r) ∧ r.ptr = ptr ∧ r.len = len) ∨
      ∃ r, w.held i = some (.inf r) ∧ r.ptr = ptr ∧ r.len = len)
    {k : Kernel} {obj : Nat → Obj} (mem : WinMem w.s k obj) : k.Circular t ptr len := by
  have v := h.inv wf laid
  obtain ⟨x, hx, ⟨v1, v2, m1, m2, b1, b2, l1, l2, hl, hs, o1, o2, c1, c2⟩, owns⟩ : ∃ x, w.held i = some x ∧
      (∃ v1 v2, v1 ∈ w.s.views ∧ v2 ∈ w.s.views ∧ v1.base = ptr ∧ v2.base = ptr + len ∧ v1.len = len ∧ v2.len = len ∧
        0 < len ∧ v1.sec = v2.sec ∧ v1.off = 0 ∧ v2.off = 0 ∧ v1.access = { read := true, write := true } ∧
        v2.access = { read := true, write := true }) ∧ ∀ v, WinHandle.Owns s0.gran x v ↔ RingView ptr len v := by
    rcases hx with ⟨r, hr, rfl, rfl⟩ | ⟨r, hr, rfl, rfl⟩
    · exact ⟨_, hr, v.there i _ hr, fun _ => Iff.rfl⟩
    · exact ⟨_, hr, v.there i _ hr, fun _ => Iff.rfl⟩
  obtain ⟨-, -, d1, -, -⟩ := v.laid.inside v1 m1
  obtain ⟨-, -, d2, -, e2⟩ := v.laid.inside v2 m2
  have hrl := w.s.roundPage_le v.wf.page_pos v2.len
  have hpd : w.s.page ∣ ptr := Nat.dvd_trans v.wf.page_dvd (b1 ▸ d1)
  have hpl : w.s.page ∣ len := by
    have : w.s.page ∣ ptr + len := Nat.dvd_trans v.wf.page_dvd (b2 ▸ d2)
    exact (Nat.dvd_add_right hpd).mp this
  have view : ∀ p, p ∈ w.s.views → p.sec = v1.sec → p.off = 0 → p.access = { read := true, write := true } → ∀ a,
      p.base ≤ a → a < p.base + p.len → ∃ e, k.pt (a / k.page) = some e ∧ e.prot.r = true ∧ e.prot.w = true ∧
        e.shared = true ∧ e.copy = none ∧ e.obj = obj v1.sec.id ∧ e.idx * k.page + a % k.page = a - p.base ∧
        k.backed e = true := by
    intro p hp hsec ho hacc a a1 a2
    obtain ⟨e, e1, e2, e3, e4, e5, e6, e7, e8⟩ := mem.view p hp a a1 a2
    rw [hacc] at e6 e7
    have hsh := e7.mpr rfl
    exact ⟨e, e1, e5, e6.mpr (.inl rfl), hsh, e8 hsh, by rw [e2, hsec], by omega, e4⟩
  refine ⟨obj v1.sec.id, ⟨hl, by rw [mem.page]; exact hpd, by rw [mem.page]; exact hpl, by omega, ?_⟩, ?_⟩
  · intro j hj
    by_cases hc : j < len
    · obtain ⟨e, e1, e2, e3, e4, e5, e6, e7, e8⟩ := view v1 m1 rfl o1 c1 (ptr + j) (by omega) (by omega)
      exact ⟨e, e1, e2, e3, e4, e5, e6, by rw [e7, Nat.mod_eq_of_lt hc]; omega, e8⟩
    · obtain ⟨e, e1, e2, e3, e4, e5, e6, e7, e8⟩ := view v2 m2 hs.symm o2 c2 (ptr + j) (by omega) (by omega)
      refine ⟨e, e1, e2, e3, e4, e5, e6, ?_, e8⟩
      rw [e7, Nat.mod_eq_sub_mod (by omega), Nat.mod_eq_of_lt (by omega)]
      omega
  · intro q e he ho
    obtain ⟨p, hp, p3, p1, p2⟩ := mem.only q e v1.sec.id he ho
    have := (owns p).mp (v.sole i x v1 p hx m1 hp ((owns v1).mpr ⟨.inl b1, l1⟩) p3)
    obtain ⟨hb | hb, hle⟩ := this <;> omega

/-- Non-vacuity: the example program holds the map of the file, then drops its other map; a ring that
is held. -/
example : WinWf ⟨.w64, true⟩ (winDemo []) ∧ WinLaid ⟨.w64, true⟩ (winDemo []) ∧
    ∃ w w' x y, WinReach winTab ⟨.w64, true⟩ (winDemo []) w ∧ WinLater winTab ⟨.w64, true⟩ w w' ∧
    w.held 1 = some x ∧ w'.held 1 = some y ∧ w.sum.2.1.length = 2 ∧ w'.sum.2.1.length = 1 := by
  refine ⟨winDemo_wf [], winDemo_laid [], ?_⟩
  obtain ⟨w, h1, h2⟩ := of_run (e := (WinWorld.start (winDemo [])).all winTab ⟨.w64, true⟩ winProg) (f := WinWorld.sum)
    (a := (3, [(78643200, 4096), (75497472, 4469)], [none, some (75501936, 5), some (78643200, 4096)]))
    (by decide +kernel)
  obtain ⟨w', g1, g2⟩ := of_run (e := (WinWorld.start (winDemo [])).all winTab ⟨.w64, true⟩ (winProg ++ [.drop 2]))
    (f := WinWorld.sum) (a := (3, [(75497472, 4469)], [none, some (75501936, 5), none])) (by decide +kernel)
  have hs : w.step winTab ⟨.w64, true⟩ (.drop 2) = .ok w' := by
    rw [all_append, h1] at g1
    simp only [WinWorld.all, bind, Except.bind] at g1
    split at g1
    · cases g1
    · rename_i hv; rw [hv, g1]
  have held : ∀ {w : WinWorld} {n vs a b c}, w.sum = (n, vs, [a, some b, c]) → ∃ x, w.held 1 = some x := by
    intro w n vs a b c hw
    simp only [WinWorld.sum, List.map_cons, List.map_nil, Prod.mk.injEq] at hw
    have h3 := (List.cons.inj (List.cons.inj hw.2.2).2).1
    cases hc : w.held 1 with
    | none => rw [hc] at h3; cases h3
    | some x => exact ⟨x, rfl⟩
  obtain ⟨x, hx⟩ := held h2
  obtain ⟨y, hy⟩ := held g2
  exact ⟨w, w', x, y, all_reach .start winProg_sane (winDemo_wf []) (winDemo_laid []) h1,
    .step (op := .drop 2) .refl trivial hs, hx, hy, by rw [h2]; rfl, by rw [g2]; rfl⟩

example : ((WinWorld.start (winDemo [])).all winTab ⟨.w64, true⟩ [.newRing 1]).map WinWorld.sum =
    .ok (1, [(68222976, 65536), (68157440, 65536)], [some (68157440, 65536), none, none]) := by decide +kernel

/-! ### C108 -/

/-- The pages of a range inside a map. -/
theorem win_range {t : Target} {s : Vmap.Win} (wf : WinWf t s) (laid : WinLaid t s) {m : MapMut} {v : WinView}
    (hv : v ∈ s.views) (mv : MapView s.gran m v) {off len : Nat} (h : off + len ≤ m.len) :
    ∃ addr sz, s.sizePage.bounds t (ptrAdd t m.ptr off) len = .ok (addr, sz) ∧
      WinPages s.page (m.ptr + off) len addr sz ∧ v.base ≤ addr ∧ addr + sz ≤ v.base + s.roundPage v.len := by
  obtain ⟨a, b, hpa, hgb, hab, hbits⟩ := wf.sizes
  obtain ⟨i1, i2, i3, i4, i5⟩ := laid.inside v hv
  obtain ⟨m1, m2, m3, m4⟩ := mv
  have hpp := wf.page_pos
  have hrl := s.roundPage_le hpp v.len
  have hpg : s.page ≤ s.gran := Nat.le_of_dvd wf.gran_pos wf.page_dvd
  have hge : s.gran ≤ v.base := Nat.le_of_dvd (Nat.pos_of_ne_zero i2) i3
  have hpb : s.page ∣ v.base := Nat.dvd_trans wf.page_dvd i3
  have hadd : ptrAdd t m.ptr off = m.ptr + off := ptrAdd_ok (by omega)
  rw [hadd]
  generalize hp : m.ptr + off = p at *
  have hsz : s.sizePage = Size.withSize (2 ^ a) := by rw [Win.sizePage, Win.systemInfo, ← hpa]
  have hd := Nat.mod_lt p hpp
  have hle := Nat.mod_le p s.page
  obtain ⟨r1, r2, r3⟩ := isRoundUp_div (u := s.page) (len := len + p % s.page) hpp
  generalize hn : (len + p % s.page + s.page - 1) / s.page * s.page = n at r1 r2 r3
  have hda : s.page ∣ p - p % s.page := Nat.dvd_sub_mod p
  have hlow : v.base ≤ p - p % s.page := by
    obtain ⟨c, hc⟩ := hpb
    obtain ⟨d, hd'⟩ := hda
    have h1 : s.page * c < s.page * (d + 1) := by rw [Nat.mul_add]; omega
    have := Nat.mul_le_mul_left s.page (Nat.le_of_lt_succ (Nat.lt_of_mul_lt_mul_left h1))
    omega
  have hb : s.sizePage.bounds t p len = .ok (p - p % s.page, n) := by
    rw [hsz]
    unfold Size.bounds
    rw [offset_eq, ← hpa]
    simp only [bind, Except.bind]
    rw [addU_ok (by omega)]
    simp only
    rw [hpa, round_eq (by omega) (by rw [← hpa]; omega), ← hpa, hn]
    rfl
  have hup : n < len + p % s.page + s.page := by
    rw [← hn]
    have := Nat.div_mul_le_self (len + p % s.page + s.page - 1) s.page
    omega
  refine ⟨_, n, hb, ⟨hda, r1, by omega, by omega, by omega, by omega⟩, hlow, ?_⟩
  have hru : s.page ∣ s.roundPage v.len := Nat.dvd_mul_left _ _
  have : s.page ∣ v.base + s.roundPage v.len - (p - p % s.page) := Nat.dvd_sub (Nat.dvd_add hpb hru) hda
  have := r3 _ this (by omega)
  omega

/-- C108: a range call on a map that a program holds, with a range inside the map, is about exactly the
fewest whole pages that contain the range, all of them pages of the map's view, and it does what
C82 says for them.  `into_map` and `into_map_mut` ask for read and write access to the pages of
the map, and give the map back if that fails. -/
theorem C108_range {tab : SysTable} {t : Target} {s0 : Vmap.Win} (wf : WinWf t s0) (laid : WinLaid t s0)
    {w : WinWorld} (h : WinReach tab t s0 w) {i : Nat} {m : MapMut} (hm : w.held i = some (.map m)) {off len : Nat}
    (hin : off + len ≤ m.len) :
    ∃ v addr sz, v ∈ w.s.views ∧ MapView s0.gran m v ∧ WinPages s0.page (m.ptr + off) len addr sz ∧ v.base ≤ addr ∧
      addr + sz ≤ v.base + w.s.roundPage v.len ∧
      (∀ file mode, w.s.flushRange t m file off len mode = .ok (w.s.flush addr file sz mode)) ∧
      (∀ adv, w.s.adviseRange t m off len adv = .ok (w.s, .ok ())) ∧
      w.s.lockRange t m off len = .ok (w.s.lock addr sz) ∧
      w.s.unlockRange t m off len = .ok (w.s.unlock addr sz) ∧
      (off = 0 → len = m.len →
        (∀ file mode, w.s.flushMap t m file mode = .ok (w.s.flush addr file sz mode)) ∧
        (∀ adv, w.s.adviseMap t m adv = .ok (w.s, .ok ())) ∧
        w.s.lockMap t m = .ok (w.s.lock addr sz) ∧ w.s.unlockMap t m = .ok (w.s.unlock addr sz) ∧
        (w.s.intoMap t m = .ok ((w.s.protect addr sz .readWrite).1, match (w.s.protect addr sz .readWrite).2 with
          | .ok () => .ok ⟨m⟩
          | .error e => .error (e, m))) ∧
        (w.s.intoMapMut t ⟨m⟩ = .ok ((w.s.protect addr sz .readWrite).1, match (w.s.protect addr sz .readWrite).2 with
          | .ok () => .ok m
          | .error e => .error (e, ⟨m⟩)))) := by
  have v := h.inv wf laid
  obtain ⟨x, hx, mx⟩ := v.there i _ hm
  have mx' := mx
  rw [← v.keeps.gran] at mx'
  obtain ⟨addr, sz, h1, h2, h3, h4⟩ := win_range v.wf v.laid hx mx' hin
  have hlim : off + len < t.lim := by
    obtain ⟨-, -, -, -, i5⟩ := v.laid.inside x hx
    have := w.s.roundPage_le v.wf.page_pos x.len
    have := mx.2.2.2
    omega
  have hadd : addU t off len = .ok (off + len) := addU_ok hlim
  have hng : ¬ off + len > m.len := by omega
  rw [v.keeps.page] at h2
  refine ⟨x, addr, sz, hx, mx, h2, h3, h4, ?_, ?_, ?_, ?_, ?_⟩
  · intro file mode
    simp only [Win.flushRange, hadd, bind, Except.bind, if_neg hng, h1]; rfl
  · intro adv
    simp only [Win.adviseRange, hadd, bind, Except.bind, if_neg hng, h1]; rfl
  · simp only [Win.lockRange, hadd, bind, Except.bind, if_neg hng, h1]; rfl
  · simp only [Win.unlockRange, hadd, bind, Except.bind, if_neg hng, h1]; rfl
  · rintro rfl rfl
    have hp0 : ptrAdd t m.ptr 0 = m.ptr := by
      obtain ⟨-, -, -, -, i5⟩ := v.laid.inside x hx
      have := w.s.roundPage_le v.wf.page_pos x.len
      have := mx.2.2.2
      exact ptrAdd_ok (by omega)
    rw [hp0] at h1
    refine ⟨fun file mode => ?_, fun adv => ?_, ?_, ?_, ?_, ?_⟩
    · simp only [Win.flushMap, bind, Except.bind, h1]; rfl
    · simp only [Win.adviseMap, bind, Except.bind, h1]; rfl
    · simp only [Win.lockMap, bind, Except.bind, h1]; rfl
    · simp only [Win.unlockMap, bind, Except.bind, h1]; rfl
    · simp only [Win.intoMap, bind, Except.bind, h1]
      rcases w.s.protect addr sz .readWrite with ⟨s, r | r⟩ <;> rfl
    · simp only [Win.intoMapMut, bind, Except.bind, h1]
      rcases w.s.protect addr sz .readWrite with ⟨s, r | r⟩ <;> rfl

/-- Non-vacuity: locking bytes 1 to 3 of the five-byte map of the example program locks the page that
contains them. -/
example : ((WinWorld.start (winDemo [])).all winTab ⟨.w64, true⟩ winProg).map
    (fun w => ((w.s.lockRange ⟨.w64, true⟩ ⟨75501936, 5⟩ 1 3).map (fun x => (x.2, x.1.log.head?)))) =
    .ok (.ok (.ok (), some (.virtualLock 75501568 4096))) := by decide +kernel

/-- C108: a range that is not inside the map is refused without a call (whenever the sum of its bounds
does not overflow; as on the other systems, see C44). -/
theorem C108_rejected_partial {t : Target} {s : Vmap.Win} {m : MapMut} {off len : Nat} (h : m.len < off + len)
    (hl : off + len < t.lim) :
    (∀ file mode, s.flushRange t m file off len mode = .ok (s, .error (Error.input .flush .invalidRange))) ∧
    (∀ adv, s.adviseRange t m off len adv = .ok (s, .error (Error.input .advise .invalidRange))) ∧
    s.lockRange t m off len = .ok (s, .error (Error.input .lock .invalidRange)) ∧
    s.unlockRange t m off len = .ok (s, .error (Error.input .unlock .invalidRange)) := by
  have hadd : addU t off len = .ok (off + len) := addU_ok hl
  refine ⟨fun file mode => ?_, fun adv => ?_, ?_, ?_⟩
  · simp only [Win.flushRange, hadd, bind, Except.bind, if_pos h]; rfl
  · simp only [Win.adviseRange, hadd, bind, Except.bind, if_pos h]; rfl
  · simp only [Win.lockRange, hadd, bind, Except.bind, if_pos h]; rfl
  · simp only [Win.unlockRange, hadd, bind, Except.bind, if_pos h]; rfl

/-- The other ranges, in builds that check for overflow: a panic, without a call. -/
theorem C108_debug {t : Target} (hc : t.checks = true) {s : Vmap.Win} {m : MapMut} {off len : Nat}
    (hl : t.lim ≤ off + len) :
    (∀ file mode, s.flushRange t m file off len mode = .error .panic) ∧
    (∀ adv, s.adviseRange t m off len adv = .error .panic) ∧
    s.lockRange t m off len = .error .panic ∧ s.unlockRange t m off len = .error .panic := by
  have hadd : addU t off len = .error .panic := addU_panic (by omega) hc
  refine ⟨fun file mode => ?_, fun adv => ?_, ?_, ?_⟩
  · simp only [Win.flushRange, hadd, bind, Except.bind]
  · simp only [Win.adviseRange, hadd, bind, Except.bind]
  · simp only [Win.lockRange, hadd, bind, Except.bind]
  · simp only [Win.unlockRange, hadd, bind, Except.bind]

example : (⟨.w64, true⟩ : Target).lim ≤ (2 ^ 64 - 4096) + 4097 := by decide

/-- C108 about refused ranges in full: no call is made for a range that is not inside the map. -/
def C108_full : Prop :=
  ∀ (t : Target) (s : Vmap.Win) (m : MapMut) (off len : Nat), off < t.lim → len < t.lim → m.len < off + len →
    s.lockRange t m off len = .ok (s, .error (Error.input .lock .invalidRange)) ∨
    s.lockRange t m off len = .error .panic

/-- It is false of builds without overflow checks: for a range that ends where the numbers wrap around,
the page *before* the map is locked. -/
theorem C108_full_false : ¬ C108_full := by
  intro h
  have := h ⟨.w64, false⟩ { winDemo [] with views := [⟨75497472, 8192, ⟨0, some 7, .readonly, 8192⟩, 0, { read := true }⟩] }
    ⟨75501568, 4096⟩ (2 ^ 64 - 4096) 4097 (by decide) (by decide) (by decide)
  have e : (({ winDemo [] with views := [⟨75497472, 8192, ⟨0, some 7, .readonly, 8192⟩, 0, { read := true }⟩] } : Win).lockRange ⟨.w64, false⟩ ⟨75501568, 4096⟩ (2 ^ 64 - 4096) 4097).map
      (fun x => (x.2, x.1.log.head?)) = .ok (.ok (), some (.virtualLock 75497472 8192)) := by decide +kernel
  rcases this with h | h <;> rw [h] at e <;> simp [Except.map] at e

/-- C108, panics: no step of a program panics, provided that the sizes asked for do not exceed the
address space.  (Stores through a map are not calls of the crate; see C120–C122.) -/
theorem C108_no_panic {tab : SysTable} {t : Target} {s0 : Vmap.Win} (wf : WinWf t s0) (laid : WinLaid t s0)
    {w : WinWorld} (h : WinReach tab t s0 w) {op : WinOp} (sane : op.Sane t w)
    (range : ∀ i off len, ((∃ file mode, op = .flush i file off len mode) ∨ (∃ adv, op = .advise i off len adv) ∨
      op = .lock i off len ∨ op = .unlock i off len) → off + len < t.lim)
    (call : ∀ i idx b, op ≠ .set i idx b) : ∃ w', w.step tab t op = .ok w' := by
  have v := h.inv wf laid
  have ring : ∀ hint, 2 * (hint + w.s.gran) < t.lim → ∃ len s' r, w.s.sizeAlloc.round t hint = .ok len ∧
      w.s.mapRing t len = .ok (s', r) := by
    intro hint hh
    obtain ⟨a, b, -, hb, -, hbits⟩ := v.wf.sizes
    have hr : w.s.sizeAlloc.round t hint = .ok ((hint + 2 ^ b - 1) / 2 ^ b * 2 ^ b) := by
      rw [Win.sizeAlloc, Win.systemInfo, hb]
      exact round_eq (by omega) (by rw [← hb]; omega)
    have hle := Nat.div_mul_le_self (hint + 2 ^ b - 1) (2 ^ b)
    obtain ⟨s', r, h1, -⟩ := win_mapRing_any v.wf v.laid (len := (hint + 2 ^ b - 1) / 2 ^ b * 2 ^ b)
      (by rw [hb]; exact Nat.dvd_mul_left _ _) (by rw [hb] at hh; omega)
    exact ⟨_, s', r, hr, h1⟩
  have onMap : ∀ {α : Type} i (f : MapMut → Exec (Vmap.Win × α)),
      (∀ m, w.held i = some (.map m) → ∃ x, f m = .ok x) → ∃ w', w.onMap i f = .ok w' := by
    intro α i f hf
    unfold WinWorld.onMap
    split
    · rename_i m hm
      obtain ⟨x, hx⟩ := hf m hm
      rw [hx]
      exact ⟨_, rfl⟩
    · exact ⟨_, rfl⟩
  have whole : ∀ {i m}, w.held i = some (.map m) → 0 + m.len ≤ m.len := fun _ => by omega
  cases op with
  | mapIf o file =>
    obtain ⟨s', r, h1, -⟩ := C106_map_if tab v.wf sane file
    simp only [WinWorld.step, h1, bind, Except.bind]
    split <;> exact ⟨_, rfl⟩
  | alloc o =>
    obtain ⟨s', r, h1, -⟩ := C81_alloc_partial t v.wf sane
    simp only [WinWorld.step, h1, bind, Except.bind]
    cases r <;> exact ⟨_, rfl⟩
  | newRing hint =>
    obtain ⟨len, s', r, h1, h2⟩ := ring hint sane
    simp only [WinWorld.step, Win.ringNew, h1, h2, bind, Except.bind]
    cases r <;> exact ⟨_, rfl⟩
  | newInf hint =>
    obtain ⟨len, s', r, h1, h2⟩ := ring hint sane
    simp only [WinWorld.step, Win.infNew, h1, h2, bind, Except.bind]
    cases r <;> exact ⟨_, rfl⟩
  | drop i =>
    simp only [WinWorld.step]
    split
    · rename_i m hm
      by_cases h0 : 0 < m.len
      · obtain ⟨x, hx, mx⟩ := v.there i _ hm
        rw [← v.keeps.gran] at mx
        obtain ⟨s', h1, -⟩ := win_dropMap_view v.wf v.laid h0 hx mx
        rw [h1]
        exact ⟨_, rfl⟩
      · rw [Win.dropMap, if_neg h0]
        exact ⟨_, rfl⟩
    · exact ⟨_, rfl⟩
    · exact ⟨_, rfl⟩
    · exact ⟨_, rfl⟩
  | flush i file off len mode =>
    refine onMap i _ fun m hm => ?_
    have hl := range i off len (.inl ⟨file, mode, rfl⟩)
    by_cases hin : off + len ≤ m.len
    · obtain ⟨_, _, _, -, -, -, -, -, g, -⟩ := C108_range wf laid h hm hin
      exact ⟨_, g file mode⟩
    · exact ⟨_, (C108_rejected_partial (by omega) hl).1 file mode⟩
  | advise i off len adv =>
    refine onMap i _ fun m hm => ?_
    have hl := range i off len (.inr (.inl ⟨adv, rfl⟩))
    by_cases hin : off + len ≤ m.len
    · obtain ⟨_, _, _, -, -, -, -, -, -, g, -⟩ := C108_range wf laid h hm hin
      exact ⟨_, g adv⟩
    · exact ⟨_, (C108_rejected_partial (by omega) hl).2.1 adv⟩
  | lock i off len =>
    refine onMap i _ fun m hm => ?_
    have hl := range i off len (.inr (.inr (.inl rfl)))
    by_cases hin : off + len ≤ m.len
    · obtain ⟨_, _, _, -, -, -, -, -, -, -, g, -⟩ := C108_range wf laid h hm hin
      exact ⟨_, g⟩
    · exact ⟨_, (C108_rejected_partial (by omega) hl).2.2.1⟩
  | unlock i off len =>
    refine onMap i _ fun m hm => ?_
    have hl := range i off len (.inr (.inr (.inr rfl)))
    by_cases hin : off + len ≤ m.len
    · obtain ⟨_, _, _, -, -, -, -, -, -, -, -, g, -⟩ := C108_range wf laid h hm hin
      exact ⟨_, g⟩
    · exact ⟨_, (C108_rejected_partial (by omega) hl).2.2.2⟩
  | intoMapMut i =>
    refine onMap i _ fun m hm => ?_
    obtain ⟨_, _, _, -, -, -, -, -, -, -, -, -, g⟩ := C108_range wf laid h hm (whole hm)
    exact ⟨_, (g rfl rfl).2.2.2.2.2⟩
  | intoMap i =>
    refine onMap i _ fun m hm => ?_
    obtain ⟨_, _, _, -, -, -, -, -, -, -, -, -, g⟩ := C108_range wf laid h hm (whole hm)
    exact ⟨_, (g rfl rfl).2.2.2.2.1⟩
  | ringUse i rpos wpos mem =>
    simp only [WinWorld.step]
    split <;> exact ⟨_, rfl⟩
  | infUse i rlen wpos mem =>
    simp only [WinWorld.step]
    split <;> exact ⟨_, rfl⟩
  | set i idx b => exact absurd rfl (call i idx b)
  | files f d => exact ⟨_, rfl⟩

end Vmap
