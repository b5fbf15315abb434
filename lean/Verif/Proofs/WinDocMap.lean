import Verif.Spec.WinDocMap
import Verif.Proofs.WinDisk
import Verif.Proofs.DocMap
import Verif.Props.WinFile
/- Helper lemmas for C160: files with a known text, and maps on Windows that show them. -/
namespace Vmap
open Spec

variable {t : Target}

theorem Spec.WinFine.ok (k : WinFs) : WinFine (pure (k, .ok ())) := ⟨k, .ok (), rfl, fun _ h => by cases h⟩

theorem Spec.WinFine.ask {α : Type} {x : Exec (WinFs × Result α)} {k : WinFs} {r : Result α}
    {f : WinFs → α → Exec (WinFs × Result Unit)} (h : x = .ok (k, r))
    (he : ∀ e, r = .error e → ∃ n, e.rawOsError = some n) (hf : ∀ a, r = .ok a → WinFine (f k a)) :
    WinFine (WinDocMap.ask x f) := by
  subst h
  cases r with
  | error e => exact ⟨k, .error e, rfl, fun e' h => by injection h with h; subst h; exact he _ rfl⟩
  | ok a => exact hf a rfl

theorem Spec.WinFine.askConv {α β : Type} {x : Exec (WinFs × ConvertResult α β)} {k : WinFs}
    {r : ConvertResult α β} {f : WinFs → α → Exec (WinFs × Result Unit)} (h : x = .ok (k, r))
    (he : ∀ e b, r = .error (e, b) → ∃ n, e.rawOsError = some n)
    (hf : ∀ a, r = .ok a → WinFine (f k a)) : WinFine (WinDocMap.askConv x f) := by
  subst h
  cases r with
  | error e =>
    obtain ⟨e, b⟩ := e
    exact ⟨k, .error e, rfl, fun e' h => by injection h with h; subst h; exact he _ _ rfl⟩
  | ok a => exact hf a rfl

theorem Spec.WinFine.next {α : Type} {x : Exec α} {a : α} {f : α → Exec (WinFs × Result Unit)}
    (h : x = .ok a) (hf : WinFine (f a)) : WinFine (x >>= f) := by
  subst h; exact hf

theorem WinDocMap.on_ok {α : Type} {k : WinFs} {x : Exec (Vmap.Win × α)} {s : Vmap.Win} {a : α} (h : x = .ok (s, a)) :
    WinDocMap.on k x = .ok ({ k with win := s }, a) := by
  subst h; rfl

/-- The section of a view has this text; the file has no more. -/
structure WinBears (s : Vmap.Win) (sec : Section) (text : List Byte) : Prop where
  size : ∀ f, sec.file = some f → s.files f = some text.length
  data : ∀ i, i < text.length → s.bytes.shown sec i = text.getD i 0

theorem WinBears.text {s : Vmap.Win} {sec : Section} {text : List Byte} (h : WinBears s sec text) {f : Nat}
    (hf : sec.file = some f) : WinText s f text :=
  ⟨h.size f hf, fun i hi => by have := h.data i hi; simpa only [WinBytes.shown, hf] using this⟩

theorem Spec.WinText.bears {s : Vmap.Win} {f : Nat} {text : List Byte} (h : WinText s f text) {sec : Section}
    (hf : sec.file = some f) : WinBears s sec text :=
  ⟨fun g hg => by rw [hf] at hg; injection hg with hg; subst hg; exact h.size,
    fun i hi => by simp only [WinBytes.shown, hf]; exact h.data i hi⟩

/-- `m` lies in the view `v` and shows its section from byte `off` on; `w`: it can be written. -/
structure WinSeen (s : Vmap.Win) (m : MapMut) (v : WinView) (off : Nat) (w : Bool) : Prop where
  pos : 0 < m.len
  mem : v ∈ s.views
  mv : MapView s.gran m v
  off : v.off + (m.ptr - v.base) = off
  read : (v.access.read || v.access.copy) = true
  write : w = true → v.access.write = true
  own : ∀ a, s.bytes.own v.sec.id a = none

theorem WinBears.here {s : Vmap.Win} {sec : Section} {text : List Byte} (h : WinBears s sec text) {i : Nat}
    (hi : i < text.length) : s.lost sec i = false := by
  unfold Win.lost
  cases hf : sec.file with
  | none => rfl
  | some f =>
    simp only [h.size f hf]
    rw [decide_eq_false_iff_not]
    have := Nat.div_mul_le_self i s.page
    omega

theorem WinSeen.load {k : WinFs} (g : WinGood t k) {m v off w} (s : WinSeen k.win m v off w)
    {text : List Byte} (tx : WinBears k.win v.sec text) {i : Nat} (hi : i < m.len) (hl : off + i < text.length) :
    k.win.load (m.ptr + i) = .ok (text.getD (off + i) 0) := by
  obtain ⟨m1, m2, m3, m4⟩ := s.mv
  have ho := s.off
  have he : v.off + (m.ptr + i - v.base) = off + i := by omega
  unfold Win.load
  rw [g.laid.look s.mem ⟨by omega, by omega⟩]
  simp only [s.own, he, s.read, tx.here hl, Bool.not_false, Bool.and_self, if_true]
  rw [tx.data _ hl]

theorem win_loadN {s : Vmap.Win} : ∀ (bs : List Byte) (a : Nat), (∀ i, i < bs.length → s.load (a + i) = .ok (bs.getD i 0)) →
    WinDocMap.loadN s a bs.length = .ok bs
  | [], _, _ => rfl
  | b :: bs, a, h => by
    have h0 := h 0 (by simp)
    have h1 := win_loadN bs (a + 1) (fun i hi => by
      have := h (i + 1) (by simp; omega)
      rw [Nat.add_assoc, Nat.add_comm 1 i]
      exact this)
    simp only [List.length_cons, WinDocMap.loadN, bind, Except.bind, h1]
    rw [Nat.add_zero] at h0
    rw [h0]
    rfl

theorem WinSeen.shows {k : WinFs} (g : WinGood t k) {m v off w} (s : WinSeen k.win m v off w)
    {text : List Byte} (tx : WinBears k.win v.sec text) (hl : off + m.len ≤ text.length) {a b : Nat} (hab : a ≤ b)
    (hb : b ≤ m.len) {want : List Byte} (hw : (text.drop (off + a)).take (b - a) = want) :
    WinDocMap.shows k m a b want = .ok () := by
  have hlen : want.length = b - a := by
    rw [← hw, List.length_take, List.length_drop]; omega
  have := win_loadN (s := k.win) want (m.ptr + a) (fun i hi => by
    rw [hlen] at hi
    rw [Nat.add_assoc, s.load g tx (i := a + i) (by omega) (by omega), ← hw]
    congr 1
    simp only [List.getD_eq_getElem?_getD, List.getElem?_take, List.getElem?_drop]
    rw [if_pos hi, Nat.add_assoc])
  rw [hlen] at this
  rw [WinDocMap.shows, if_pos ⟨hab, hb⟩, this]
  simp only [bind, Except.bind, Doc.assert, decide_true, if_true]

/-- Only bytes differ. -/
theorem Spec.WinGood.bare {k : WinFs} (g : WinGood t k) (b : WinBytes) :
    WinGood t { k with win := { k.win with bytes := b } } :=
  ⟨⟨⟨g.wf.win.sizes, g.wf.win.views, g.wf.win.reserved, g.wf.win.handles⟩, g.wf.names, g.wf.files, g.wf.once,
    g.wf.opened, g.wf.views⟩, ⟨g.laid.sizes, g.laid.inside, g.laid.apart⟩⟩

/-- Writing one byte. -/
theorem WinSeen.store {k : WinFs} (g : WinGood t k) {m v off} (s : WinSeen k.win m v off true)
    {len : Nat} (sz : ∀ f, v.sec.file = some f → k.win.files f = some len) {i : Nat} (hi : i < m.len)
    (hl : off + i < len) (b : Byte) :
    ∃ by', k.win.store (m.ptr + i) b = .ok { k.win with bytes := by' } ∧ by'.own = k.win.bytes.own ∧
      (∀ j, by'.shown v.sec j = if j = off + i then b else k.win.bytes.shown v.sec j) ∧
      (∀ f, v.sec.file ≠ some f → by'.file f = k.win.bytes.file f) := by
  obtain ⟨m1, m2, m3, m4⟩ := s.mv
  have ho := s.off
  have he : v.off + (m.ptr + i - v.base) = off + i := by omega
  have hlost : k.win.lost v.sec (off + i) = false := by
    unfold Win.lost
    cases hf : v.sec.file with
    | none => rfl
    | some f =>
      simp only [sz f hf]
      rw [decide_eq_false_iff_not]
      have := Nat.div_mul_le_self (off + i) k.win.page
      omega
  unfold Win.store
  rw [g.laid.look s.mem ⟨by omega, by omega⟩]
  simp only [he, s.write rfl, hlost, if_true, Bool.false_eq_true, if_false]
  cases hf : v.sec.file with
  | none =>
    refine ⟨_, rfl, rfl, fun j => ?_, fun f _ => rfl⟩
    simp only [WinBytes.shown, hf, true_and]
  | some f =>
    refine ⟨_, rfl, rfl, fun j => ?_, fun q hq => ?_⟩
    · simp only [WinBytes.shown, hf, true_and]
    · funext j
      simp only
      rw [if_neg]
      rintro ⟨rfl, -⟩
      exact hq rfl

theorem WinSeen.bare {s : Vmap.Win} {m v off w} (h : WinSeen s m v off w) {b : WinBytes} (hb : b.own = s.bytes.own) :
    WinSeen { s with bytes := b } m v off w :=
  ⟨h.pos, h.mem, h.mv, h.off, h.read, h.write, by show ∀ a, b.own _ a = none; rw [hb]; exact h.own⟩

theorem WinSeen.storeN {m v off} {len : Nat} : ∀ (new : List Byte) {k : WinFs} (_ : WinGood t k)
    (_ : WinSeen k.win m v off true) (_ : ∀ f, v.sec.file = some f → k.win.files f = some len) {i : Nat}
    (_ : i + new.length ≤ m.len) (_ : off + m.len ≤ len),
    ∃ by', WinDocMap.storeN k.win (m.ptr + i) new = .ok { k.win with bytes := by' } ∧ by'.own = k.win.bytes.own ∧
      (∀ j, by'.shown v.sec j = if off + i ≤ j ∧ j < off + i + new.length then new.getD (j - (off + i)) 0
        else k.win.bytes.shown v.sec j) ∧
      (∀ f, v.sec.file ≠ some f → by'.file f = k.win.bytes.file f)
  | [], k, _, _, _, i, _, _ => by
    refine ⟨k.win.bytes, rfl, rfl, fun j => ?_, fun _ _ => rfl⟩
    rw [if_neg (by simp)]
  | b :: bs, k, g, s, sz, i, hi, hl => by
    rw [List.length_cons] at hi
    obtain ⟨y, e1, o1, d1, f1⟩ := s.store g sz (i := i) (by omega) (by omega) b
    obtain ⟨z, e2, o2, d2, f2⟩ := WinSeen.storeN bs (g.bare y) (s.bare o1) sz (i := i + 1) (by omega) hl
    refine ⟨z, ?_, o2.trans o1, fun j => ?_, fun f hf => (f2 f hf).trans (f1 f hf)⟩
    · simp only [WinDocMap.storeN, bind, Except.bind, e1]
      exact e2
    · rw [d2 j]
      show (if _ then _ else y.shown v.sec j) = _
      rw [d1 j, List.length_cons]
      by_cases h1 : off + (i + 1) ≤ j ∧ j < off + (i + 1) + bs.length
      · rw [if_pos h1, if_pos (by omega)]
        have : j - (off + i) = (j - (off + (i + 1))) + 1 := by omega
        rw [this]
        rfl
      · rw [if_neg h1]
        by_cases h2 : j = off + i
        · rw [if_pos h2, if_pos (by omega), h2, Nat.sub_self]
          rfl
        · rw [if_neg h2, if_neg (by omega)]

/-- Writing a text through a map. -/
theorem WinSeen.put {k : WinFs} (g : WinGood t k) {m v off} (s : WinSeen k.win m v off true)
    {text : List Byte} (tx : WinBears k.win v.sec text) (hl : off + m.len ≤ text.length) {new : List Byte}
    (hn : new.length ≤ m.len) :
    ∃ by', WinDocMap.put k m new = .ok { k with win := { k.win with bytes := by' } } ∧
      WinGood t { k with win := { k.win with bytes := by' } } ∧
      WinBears { k.win with bytes := by' } v.sec (text.take off ++ new ++ text.drop (off + new.length)) ∧
      WinSeen { k.win with bytes := by' } m v off true ∧
      (∀ f, v.sec.file ≠ some f → by'.file f = k.win.bytes.file f) := by
  obtain ⟨y, e, o, d, f⟩ := WinSeen.storeN new g s tx.size (i := 0) (by omega) hl
  have hlen : (text.take off ++ new ++ text.drop (off + new.length)).length = text.length := by
    simp only [List.length_append, List.length_take, List.length_drop]; omega
  refine ⟨y, ?_, g.bare y, ⟨fun q hq => ?_, ?_⟩, s.bare o, f⟩
  · rw [Nat.add_zero] at e
    simp only [WinDocMap.put, if_pos hn, e, bind, Except.bind]
    rfl
  · rw [hlen]; exact tx.size q hq
  · intro i hi
    rw [hlen] at hi
    show y.shown v.sec i = _
    rw [d i, Nat.add_zero]
    simp only [List.getD_eq_getElem?_getD]
    by_cases h1 : i < off
    · rw [if_neg (by omega), tx.data i hi, List.append_assoc,
        List.getElem?_append_left (by rw [List.length_take]; omega), List.getElem?_take, if_pos h1]
      rw [List.getD_eq_getElem?_getD]
    · by_cases h2 : i < off + new.length
      · rw [if_pos (by omega), List.append_assoc,
          List.getElem?_append_right (by rw [List.length_take]; omega), List.length_take,
          Nat.min_eq_left (by omega), List.getElem?_append_left (by omega)]
      · rw [if_neg (by omega), tx.data i hi, List.getElem?_append_right (by
          simp only [List.length_append, List.length_take]; omega)]
        simp only [List.length_append, List.length_take, List.getElem?_drop, List.getD_eq_getElem?_getD]
        congr 2
        omega

/-! ### Calls that change nothing -/

theorem Spec.WinGood.still {k : WinFs} (g : WinGood t k) {s' : Vmap.Win} (h : WinStill k.win s') :
    WinGood t { k with win := s' } :=
  ⟨⟨h.quiet.wf g.wf.win, g.wf.names, by show ∀ f, _ ↔ ∃ n, s'.files f = some n; rw [h.files]; exact g.wf.files, g.wf.once,
    g.wf.opened, by show ∀ v, v ∈ s'.views → _; rw [h.quiet.views]; exact g.wf.views⟩, h.quiet.laid g.laid⟩

theorem WinSeen.still {s s' : Vmap.Win} {m v off w} (h : WinSeen s m v off w) (q : WinStill s s') :
    WinSeen s' m v off w :=
  ⟨h.pos, by rw [q.quiet.views]; exact h.mem, by rw [q.quiet.keeps.gran]; exact h.mv, h.off, h.read, h.write,
    by rw [q.bytes]; exact h.own⟩

theorem WinBears.still {s s' : Vmap.Win} {sec : Section} {text : List Byte} (h : WinBears s sec text)
    (q : WinStill s s') : WinBears s' sec text :=
  ⟨by rw [q.files]; exact h.size, by rw [q.bytes]; exact h.data⟩

theorem win_wrap_raw {op : Operation} {r : Vmap.Win × Except Nat Unit} {s' : Vmap.Win} {e : Error}
    (h : Win.wrap op r = (s', .error e)) : ∃ n, e.rawOsError = some n := by
  obtain ⟨s, r⟩ := r
  cases r with
  | ok u => injection h with _ h; cases h
  | error n => injection h with _ h; injection h with h; exact ⟨n, by rw [← h]; rfl⟩

/-- The whole range of a map. -/
theorem WinSeen.bounds {k : WinFs} (g : WinGood t k) {m v off w} (s : WinSeen k.win m v off w) {a l : Nat}
    (h : a + l ≤ m.len) : ∃ addr sz, k.win.sizePage.bounds t (ptrAdd t m.ptr a) l = .ok (addr, sz) ∧
      WinPages k.win.page (m.ptr + a) l addr sz := by
  obtain ⟨addr, sz, h1, h2, -⟩ := win_range g.wf.win g.laid s.mem s.mv h
  exact ⟨addr, sz, h1, h2⟩

theorem WinSeen.whole {k : WinFs} (g : WinGood t k) {m v off w} (s : WinSeen k.win m v off w) :
    ∃ addr sz, k.win.sizePage.bounds t m.ptr m.len = .ok (addr, sz) ∧ WinPages k.win.page m.ptr m.len addr sz := by
  obtain ⟨addr, sz, h1, h2⟩ := s.bounds g (a := 0) (l := m.len) (by omega)
  obtain ⟨m1, m2, m3, m4⟩ := s.mv
  obtain ⟨i1, i2, i3, i4, i5⟩ := g.laid.inside v s.mem
  have := k.win.roundPage_le g.wf.win.page_pos v.len
  rw [ptrAdd_ok (by omega)] at h1
  exact ⟨addr, sz, h1, h2⟩

/-- `into_map_mut`. -/
theorem WinSeen.intoMapMut {k : WinFs} (g : WinGood t k) {m v off w} (s : WinSeen k.win m v off w) :
    ∃ s' r, WinDocMap.on k (k.win.intoMapMut t ⟨m⟩) = .ok ({ k with win := s' }, r) ∧ WinStill k.win s' ∧
      (∀ e b, r = .error (e, b) → ∃ n, e.rawOsError = some n) ∧ (∀ m', r = .ok m' → m' = m) := by
  obtain ⟨addr, sz, h, -⟩ := s.whole g
  have call : ∃ s' r, k.win.intoMapMut t ⟨m⟩ = .ok (s', r) ∧
      (∀ e b, r = .error (e, b) → ∃ n, e.rawOsError = some n) ∧ (∀ m', r = .ok m' → m' = m) := by
    simp only [Win.intoMapMut, h, bind, Except.bind]
    cases hp : k.win.protect addr sz .readWrite with
    | mk s' r =>
      cases r with
      | ok u => exact ⟨s', _, rfl, (fun e b h => by cases h), fun m' h => by injection h with h; exact h.symm⟩
      | error e =>
        refine ⟨s', _, rfl, fun e' b h => ?_, fun m' h => by cases h⟩
        injection h with h; injection h with h _; subst h
        exact win_wrap_raw hp
  obtain ⟨s', r, c, e1, e2⟩ := call
  exact ⟨s', r, WinDocMap.on_ok c, win_intoMapMut_still c, e1, e2⟩

/-- `into_map`. -/
theorem WinSeen.intoMap {k : WinFs} (g : WinGood t k) {m v off w} (s : WinSeen k.win m v off w) :
    ∃ s' r, WinDocMap.on k (k.win.intoMap t m) = .ok ({ k with win := s' }, r) ∧ WinStill k.win s' ∧
      (∀ e b, r = .error (e, b) → ∃ n, e.rawOsError = some n) ∧ (∀ m', r = .ok m' → m' = ⟨m⟩) := by
  obtain ⟨addr, sz, h, -⟩ := s.whole g
  have call : ∃ s' r, k.win.intoMap t m = .ok (s', r) ∧
      (∀ e b, r = .error (e, b) → ∃ n, e.rawOsError = some n) ∧ (∀ m', r = .ok m' → m' = ⟨m⟩) := by
    simp only [Win.intoMap, h, bind, Except.bind]
    cases hp : k.win.protect addr sz .readWrite with
    | mk s' r =>
      cases r with
      | ok u => exact ⟨s', _, rfl, (fun e b h => by cases h), fun m' h => by injection h with h; exact h.symm⟩
      | error e =>
        refine ⟨s', _, rfl, fun e' b h => ?_, fun m' h => by cases h⟩
        injection h with h; injection h with h _; subst h
        exact win_wrap_raw hp
  obtain ⟨s', r, c, e1, e2⟩ := call
  exact ⟨s', r, WinDocMap.on_ok c, win_intoMap_still c, e1, e2⟩

theorem win_flush_raw {s s' : Vmap.Win} {pg file len : Nat} {mode : FlushMode} {e : Error}
    (h : s.flush pg file len mode = (s', .error e)) : ∃ n, e.rawOsError = some n := by
  unfold Win.flush at h
  revert h
  generalize s.simple (.flushViewOfFile pg len) = x
  obtain ⟨s1, r1⟩ := x
  intro h
  cases r1 with
  | error n => injection h with _ h; injection h with h; exact ⟨n, by rw [← h]; rfl⟩
  | ok u =>
    cases mode with
    | async => injection h with _ h; cases h
    | sync => exact win_wrap_raw h

/-- `flush`. -/
theorem WinSeen.flush {k : WinFs} (g : WinGood t k) {m v off w} (s : WinSeen k.win m v off w) (fd : Nat)
    (mode : FlushMode) :
    ∃ s' r, WinDocMap.on k (k.win.flushMap t m fd mode) = .ok ({ k with win := s' }, r) ∧ WinStill k.win s' ∧
      (∀ e, r = .error e → ∃ n, e.rawOsError = some n) := by
  obtain ⟨addr, sz, h, -⟩ := s.whole g
  refine ⟨(k.win.flush addr fd sz mode).1, (k.win.flush addr fd sz mode).2, WinDocMap.on_ok ?_, .flush .., ?_⟩
  · simp only [Win.flushMap, h, bind, Except.bind]; rfl
  · intro e he
    exact win_flush_raw (show k.win.flush addr fd sz mode = ((k.win.flush addr fd sz mode).1, .error e) by rw [← he])

/-- `flush_range`. -/
theorem WinSeen.flushRange {k : WinFs} (g : WinGood t k) {m v off w} (s : WinSeen k.win m v off w) (fd : Nat) {a l : Nat}
    (hl : a + l ≤ m.len) (mode : FlushMode) :
    ∃ s' r, WinDocMap.on k (k.win.flushRange t m fd a l mode) = .ok ({ k with win := s' }, r) ∧ WinStill k.win s' := by
  obtain ⟨addr, sz, h, -⟩ := s.bounds g hl
  obtain ⟨m1, m2, m3, m4⟩ := s.mv
  obtain ⟨i1, i2, i3, i4, i5⟩ := g.laid.inside v s.mem
  have := k.win.roundPage_le g.wf.win.page_pos v.len
  have hs : addU t a l = .ok (a + l) := addU_ok (by omega)
  refine ⟨(k.win.flush addr fd sz mode).1, (k.win.flush addr fd sz mode).2, WinDocMap.on_ok ?_, .flush ..⟩
  simp only [Win.flushRange, hs, h, bind, Except.bind]
  rw [if_neg (by omega)]; rfl

/-- `advise`. -/
theorem WinSeen.advise {k : WinFs} (g : WinGood t k) {m v off w} (s : WinSeen k.win m v off w) (adv : Advise) :
    WinDocMap.on k (k.win.adviseMap t m adv) = .ok (k, .ok ()) := by
  obtain ⟨addr, sz, h, -⟩ := s.whole g
  simp only [Win.adviseMap, h, bind, Except.bind, WinDocMap.on]; rfl

/-- Dropping a map. -/
theorem WinSeen.drop {k : WinFs} (g : WinGood t k) {m v off w} (s : WinSeen k.win m v off w) :
    ∃ s', WinDocMap.drop t k m = .ok { k with win := s' } ∧ WinGood t { k with win := s' } ∧ s'.bytes = k.win.bytes ∧
      s'.files = k.win.files ∧ WinKeeps k.win s' := by
  obtain ⟨s', h, keeps, next, views, bytes, files⟩ := win_dropMap_view g.wf.win g.laid s.pos s.mem s.mv
  have sub : ∀ x, x ∈ s'.views → x ∈ k.win.views := fun x hx => by
    rw [views] at hx; exact (List.mem_filter.mp hx).1
  refine ⟨s', by simp only [WinDocMap.drop, h, bind, Except.bind]; rfl, ⟨⟨?_, g.wf.names, ?_, g.wf.once, g.wf.opened, ?_⟩, ?_⟩,
    bytes, files, keeps⟩
  · exact ⟨by rw [keeps.page, keeps.gran]; exact g.wf.win.sizes, fun x hx => by rw [next]; exact g.wf.win.views x (sub x hx),
      by rw [keeps.reserved]; exact g.wf.win.reserved, by rw [keeps.handles, next]; exact g.wf.win.handles⟩
  · show ∀ f, _ ↔ ∃ n, s'.files f = some n
    rw [files]; exact g.wf.files
  · exact fun x hx => g.wf.views x (sub x hx)
  · exact g.laid.sub keeps (by rw [views]; exact List.filter_sublist)

/-! ### New maps -/

/-- What was there is still there, and maps keep their own copies. -/
structure WinOlder (s s' : Vmap.Win) : Prop extends WinKeeps s s' where
  next : s.next ≤ s'.next
  own : ∀ id, id < s.next → s'.bytes.own id = s.bytes.own id
  views : ∀ v, v ∈ s.views → v ∈ s'.views

theorem WinOlder.refl (s : Vmap.Win) : WinOlder s s := ⟨.refl _, Nat.le_refl _, fun _ _ => rfl, fun _ h => h⟩

theorem WinOlder.trans {a b c : Vmap.Win} (h : WinOlder a b) (g : WinOlder b c) : WinOlder a c :=
  ⟨h.toWinKeeps.trans g.toWinKeeps, Nat.le_trans h.next g.next,
    fun id hi => (g.own id (Nat.lt_of_lt_of_le hi h.next)).trans (h.own id hi), fun v hv => g.views v (h.views v hv)⟩

theorem WinQuiet.older {s s' : Vmap.Win} (h : WinQuiet s s') : WinOlder s s' :=
  ⟨h.keeps, h.calm.next, fun id hi => (h.calm.old id hi).2, fun v hv => by rw [h.views]; exact hv⟩

theorem WinMap.seen {s s' : Vmap.Win} (l : WinLaid t s) (keeps : WinKeeps s s') {m : MapMut} {file : Option Nat} {off : Nat}
    {p : Protect} {v : WinView} (h : WinMap t s s' m file off p v) (own : ∀ a, s'.bytes.own v.sec.id a = none)
    (pos : 0 < m.len) : WinSeen s' m v off (decide (p = .readWrite)) := by
  obtain ⟨l', mv⟩ := WinMap.laid l keeps h
  have hv : v ∈ s'.views := by rw [h.views]; exact List.mem_cons_self
  have h1 := WinMap.sees l' h (i := 0) pos
  obtain ⟨i1, i2, -, -⟩ := h.inside
  rw [Nat.add_zero, l'.sees hv ⟨i1, by omega⟩] at h1
  injection h1 with h1
  injection h1 with _ h1
  injection h1 with h1 _
  refine ⟨pos, hv, by rw [keeps.gran]; exact mv, h1, ?_, ?_, own⟩
  · rw [Bool.or_eq_true]; exact h.access.read
  · intro hw
    rw [decide_eq_true_eq] at hw
    exact h.access.write.mpr hw

theorem fitted_now {s s' : Vmap.Win} {f : Nat} {text : List Byte} (tx : WinText s f text) (small : text.length < t.lim)
    {trunc : Bool} {resize : Extent}
    (now : FileNow s s' f (cutLen trunc text.length (text.length % t.lim)) (leftLen trunc resize text.length (text.length % t.lim))) :
    WinText s' f (fitted trunc resize text) := by
  have hmod : text.length % t.lim = text.length := Nat.mod_eq_of_lt small
  rw [hmod, C35_left_small] at now
  have hcut : cutLen trunc text.length text.length = if trunc then 0 else text.length := by
    cases trunc <;> simp [cutLen]
  rw [hcut] at now
  refine ⟨by rw [fitted_length]; exact now.len, ?_⟩
  intro i hi
  rw [fitted_length] at hi
  rw [now.bytes i hi]
  simp only [fitted, List.getD_eq_getElem?_getD]
  by_cases hk : i < if trunc then 0 else text.length
  · have ht : trunc = false := by
      cases h : trunc with
      | false => rfl
      | true => rw [h] at hk; simp at hk
    rw [if_pos hk]
    subst ht
    simp only [Bool.false_eq_true, if_false] at hk ⊢
    rw [tx.data i hk, List.getElem?_append_left (by rw [List.length_take]; omega), List.getElem?_take,
      if_pos hi, List.getD_eq_getElem?_getD]
  · rw [if_neg hk]
    have hl : ((if trunc then [] else text).take (newLen trunc resize text.length)).length ≤ i := by
      rw [List.length_take]
      cases h : trunc <;> rw [h] at hk <;> simp at hk ⊢ <;> omega
    rw [List.getElem?_append_right hl, List.getElem?_replicate]
    by_cases hq : i - ((if trunc then [] else text).take (newLen trunc resize text.length)).length <
        newLen trunc resize text.length - (if trunc then 0 else text.length)
    · rw [if_pos hq]; rfl
    · rw [if_neg hq]; rfl

/-- `map_if` on a file with a known text. -/
theorem winMapped (tab : SysTable) {k : WinFs} (g : WinGood t k) {o : Options} (fits : Fits t o) {h f : Nat} {wr : Bool}
    (hh : k.opened h = some (f, wr)) {text : List Byte} (tx : WinText k.win f text) (small : text.length < t.lim) :
    ∃ s' r, k.mapIf tab t o h = .ok ({ k with win := s' }, r) ∧ WinGood t { k with win := s' } ∧ WinOlder k.win s' ∧
      (∀ e, r = .error e → ∃ n, e.rawOsError = some n) ∧
      (r = .ok none → ¬ InRange (newLen o.truncate o.resize text.length) o.offset o.len) ∧
      (∀ x, r = .ok x → WinText s' f (fitted o.truncate o.resize text)) ∧
      (∀ m, r = .ok (some m) → InRange (newLen o.truncate o.resize text.length) o.offset o.len ∧
        m.len = wanted (newLen o.truncate o.resize text.length) o.offset o.len ∧
        o.offset + m.len ≤ (fitted o.truncate o.resize text).length ∧
        (0 < m.len → ∃ v, v.sec.file = some f ∧ WinSeen s' m v o.offset (decide (o.protect = .readWrite)) ∧
          WinAllows o.protect v.access ∧ k.win.next ≤ v.sec.id)) := by
  obtain ⟨hf, -⟩ := g.wf.opened h f wr hh
  have hmod : text.length % t.lim = text.length := Nat.mod_eq_of_lt small
  have go : ∀ s' r, k.win.mapIfAs tab t wr o f = .ok (s', r) → k.mapIf tab t o h = .ok ({ k with win := s' }, r) := by
    intro s' r e
    simp only [WinFs.mapIf, hh, e, bind, Except.bind]; rfl
  rcases mapIfAs_out tab g.wf.win fits wr f with ⟨h1, -⟩ | ⟨-, s', e, h1, den, he⟩
  · obtain ⟨s', r, g1, g2, g3, g4, g5, g6⟩ := C106_map_if tab g.wf.win fits f
    obtain ⟨calm, hb⟩ := win_mapIf_bytes g.wf.win fits g1
    have keeps : WinKeeps k.win s' := ⟨g3.1, g3.2.1, g3.2.2.1, g3.2.2.2⟩
    obtain ⟨s2, r2, k1, -, k3⟩ := mapIf_fs tab g.wf fits hh
    rw [go _ _ (h1.trans g1)] at k1
    cases k1
    have laid : WinLaid t s' := by
      have same : s'.views = k.win.views → WinLaid t s' := fun h =>
        g.laid.sub keeps (by rw [h]; exact List.Sublist.refl _)
      cases r with
      | error e => exact same (g6 e rfl).1
      | ok x =>
        obtain ⟨n, -, -, -, a, b⟩ := g5 x rfl
        cases x with
        | none => exact same (a rfl)
        | some m =>
          obtain ⟨-, v, wm⟩ := b m rfl
          exact (WinMap.laid g.laid keeps wm).1
    have more : ∀ v, v ∈ k.win.views → v ∈ s'.views := by
      intro x hx
      cases r with
      | error e => rw [(g6 e rfl).1]; exact hx
      | ok y =>
        obtain ⟨n, -, -, -, a, b⟩ := g5 y rfl
        cases y with
        | none => rw [a rfl]; exact hx
        | some m =>
          obtain ⟨-, v, wm⟩ := b m rfl
          rw [wm.views]; exact List.mem_cons_of_mem _ hx
    refine ⟨s', r, go _ _ (h1.trans g1), ⟨k3, laid⟩, ⟨keeps, calm.next, fun id hi => (calm.old id hi).2, more⟩, ?_, ?_, ?_, ?_⟩
    · intro e he
      obtain ⟨-, ⟨code, h, -⟩ | ⟨code, -, -, -, -, h | h⟩⟩ := g6 e he <;> exact ⟨code, by rw [h]; rfl⟩
    · intro hr
      obtain ⟨n, hn, -, hi, -⟩ := g5 none hr
      rw [tx.size] at hn
      injection hn with hn
      rw [← hn, hmod] at hi
      exact hi.mp rfl
    · intro x hx
      rcases hb with ⟨e, he, -⟩ | ⟨n, hn, now, -⟩
      · rw [hx] at he; cases he
      · rw [tx.size] at hn
        injection hn with hn
        subst hn
        exact fitted_now tx small now
    · intro m hm
      rcases hb with ⟨e, he, -⟩ | ⟨n, hn, now, hmm⟩
      · rw [hm] at he; cases he
      · rw [tx.size] at hn
        injection hn with hn
        subst hn
        obtain ⟨c1, c2, v, wm, own⟩ := hmm m hm
        rw [hmod] at c1 c2
        refine ⟨c1, c2, ?_, fun pos => ⟨v, wm.sec.2, WinMap.seen g.laid keeps wm own pos, wm.access, wm.sec.1⟩⟩
        rw [fitted_length, c2]
        clear c2
        revert c1
        cases o.len with
        | max l =>
          simp only [InRange, wanted]
          intro c1
          have := Nat.min_le_right l (newLen o.truncate o.resize text.length - o.offset)
          show o.offset + min l _ ≤ _
          omega
        | _ => simp only [InRange, wanted]; omega
  · refine ⟨s', _, go _ _ h1, ?_, den.quiet.older, ?_, (fun h => by cases h), (fun x h => by cases h), fun m h => by cases h⟩
    · refine ⟨⟨den.quiet.wf g.wf.win, g.wf.names, ?_, g.wf.once, g.wf.opened, ?_⟩, den.quiet.laid g.laid⟩
      · show ∀ f, _ ↔ ∃ n, s'.files f = some n
        rw [den.files]; exact g.wf.files
      · show ∀ v, v ∈ s'.views → _
        rw [den.quiet.views]; exact g.wf.views
    · intro e' h'
      injection h' with h'
      subst h'
      rcases he with h | h <;> exact ⟨5, by rw [h]; rfl⟩

/-- The file before opening: it has a text, or it is not there. -/
def WinFileWas (k : WinFs) (path : String) (text : List Byte) : Prop :=
  WinFileHas k path text ∨ (k.names path = none ∧ text = [])

theorem Spec.WinGood.close {k : WinFs} (g : WinGood t k) (h : Nat) : WinGood t (k.close h) :=
  ⟨g.wf.close h, g.laid⟩

/-- Opening a file. -/
theorem winOpens (tab : SysTable) {k : WinFs} (g : WinGood t k) {o : OpenOptions} {path : String} {text : List Byte}
    (was : WinFileWas k path text) :
    ∃ k' r, k.openFile tab o path = (k', r) ∧ WinGood t k' ∧ WinOlder k.win k'.win ∧
      (∀ e, r = .error e → (∃ n, e.os = some n) ∧ WinFsSame k k') ∧
      ∀ h, r = .ok h → ∃ f, k'.names path = some f ∧ k'.opened h = some (f, o.write) ∧
        WinText k'.win f (if o.truncate then [] else text) := by
  rcases openFile_next tab g.wf o path with ⟨k', code, h1, same, wf1, -⟩ | ⟨k', f, l, h1, op, -⟩
  · refine ⟨k', _, h1, ⟨wf1, by rw [same.win]; exact g.laid⟩, by rw [same.win]; exact .refl _, ?_, fun h e => by cases e⟩
    intro e he
    injection he with he
    subst he
    exact ⟨⟨code, rfl⟩, same⟩
  · refine ⟨k', _, h1, ⟨op.wf, op.quiet.laid g.laid⟩, op.quiet.older, (fun e h => by cases h), ?_⟩
    intro h hh
    injection hh with hh
    subst hh
    refine ⟨f, op.name, by rw [op.opened]; exact if_pos rfl, ?_⟩
    have found := op.found
    have len := op.len
    have bytes := op.bytes
    rcases was with ⟨f', n1, tx⟩ | ⟨n1, n2⟩
    · generalize hl : l = l' at found
      cases found with
      | @there _ l0 name may len0 =>
        rw [n1] at name
        injection name with name
        subst name
        rw [tx.size] at len0
        injection len0 with len0
        subst len0
        cases ht : o.truncate with
        | true =>
          rw [ht] at hl
          subst hl
          exact ⟨len, fun i hi => absurd hi (by simp)⟩
        | false =>
          rw [ht] at hl
          simp only [Bool.false_eq_true, if_false] at hl ⊢
          subst hl
          exact ⟨len, fun i hi => by rw [bytes i hi]; exact tx.data i hi⟩
      | new name => rw [n1] at name; cases name
    · subst n2
      generalize hl : l = l' at found
      cases found with
      | there name => rw [n1] at name; cases name
      | new name =>
        subst hl
        refine ⟨by simpa using len, fun i hi => absurd hi (by split at hi <;> simp at hi)⟩

/-- `open_if` on a file with a known text. -/
theorem winOpenedIf (tab : SysTable) {k : WinFs} (g : WinGood t k) {o : Options} (fits : Fits t o)
    {path : String} {text : List Byte} (was : WinFileWas k path text) (small : text.length < t.lim)
    (tr : o.openOptions.truncate = o.truncate) :
    ∃ k' r, k.openIf tab t o path = .ok (k', r) ∧ WinGood t k' ∧ WinOlder k.win k'.win ∧
      (∀ e, r = .error e → ∃ n, e.rawOsError = some n) ∧
      (∀ fd, r = .ok (none, fd) → ¬ InRange (newLen o.truncate o.resize text.length) o.offset o.len) ∧
      (∀ x fd, r = .ok (x, fd) → ∃ f, k'.names path = some f ∧ k'.opened fd = some (f, o.openOptions.write) ∧
        WinText k'.win f (fitted o.truncate o.resize text) ∧
        ∀ m, x = some m → InRange (newLen o.truncate o.resize text.length) o.offset o.len ∧
          m.len = wanted (newLen o.truncate o.resize text.length) o.offset o.len ∧
          o.offset + m.len ≤ (fitted o.truncate o.resize text).length ∧
          (0 < m.len → ∃ v, v.sec.file = some f ∧ WinSeen k'.win m v o.offset (decide (o.protect = .readWrite)) ∧
            WinAllows o.protect v.access ∧ k.win.next ≤ v.sec.id)) := by
  obtain ⟨k1, r1, e1, g1, kp1, er1, ok1⟩ := winOpens tab g (o := o.openOptions) was
  cases r1 with
  | error e =>
    refine ⟨k1, .error (Options.mapFileErr e), by simp only [WinFs.openIf, e1]; rfl, g1, kp1, ?_,
      (fun fd h => by cases h), fun m fd h => by cases h⟩
    intro e' he'
    injection he' with he'
    subst he'
    exact (er1 e rfl).1
  | ok fd =>
    obtain ⟨f, n1, f1, t1⟩ := ok1 fd rfl
    have hnl : newLen o.truncate o.resize (if o.openOptions.truncate then [] else text).length =
        newLen o.truncate o.resize text.length := by
      rw [tr]; cases o.truncate <;> rfl
    have hft : fitted o.truncate o.resize (if o.openOptions.truncate then [] else text) =
        fitted o.truncate o.resize text := by
      unfold fitted
      rw [hnl, tr]; cases o.truncate <;> rfl
    obtain ⟨s2, r2, e2, g2, kp2, er2, no2, tx2, ok2⟩ := winMapped tab g1 fits f1 t1
      (by split; exact t.lim_pos; exact small)
    rw [hnl] at no2
    simp only [hnl, hft] at ok2 tx2
    cases r2 with
    | error e =>
      refine ⟨WinFs.close { k1 with win := s2 } fd, .error e, by simp only [WinFs.openIf, e1, e2, bind, Except.bind]; rfl,
        g2.close fd, kp1.trans kp2, ?_, (fun fd h => by cases h), fun m fd h => by cases h⟩
      intro e' he'
      injection he' with he'
      subst he'
      exact er2 _ rfl
    | ok m =>
      refine ⟨{ k1 with win := s2 }, .ok (m, fd), by simp only [WinFs.openIf, e1, e2, bind, Except.bind]; rfl, g2,
        kp1.trans kp2, (fun e h => by cases h), ?_, ?_⟩
      · intro fd' h
        injection h with h; injection h with h h'
        subst h
        exact no2 rfl
      · intro x fd' h
        injection h with h; injection h with h h'
        subst h; subst h'
        refine ⟨f, n1, f1, tx2 m rfl, fun m' hm => ?_⟩
        obtain ⟨c1, c2, c3, c4⟩ := ok2 m' (by rw [hm])
        refine ⟨c1, c2, c3, fun pos => ?_⟩
        obtain ⟨v, d1, d2, d3, d4⟩ := c4 pos
        exact ⟨v, d1, d2, d3, Nat.le_trans kp1.next d4⟩

/-- `open` on a file with a known text. -/
theorem winOpened (tab : SysTable) {k : WinFs} (g : WinGood t k) {o : Options} (fits : Fits t o)
    {path : String} {text : List Byte} (was : WinFileWas k path text) (small : text.length < t.lim)
    (tr : o.openOptions.truncate = o.truncate) :
    ∃ k' r, k.open_ tab t o path = .ok (k', r) ∧ WinGood t k' ∧ WinOlder k.win k'.win ∧
      (∀ e, r = .error e → (∃ n, e.rawOsError = some n) ∨
        ¬ InRange (newLen o.truncate o.resize text.length) o.offset o.len) ∧
      (∀ m fd, r = .ok (m, fd) → ∃ f, k'.names path = some f ∧ k'.opened fd = some (f, o.openOptions.write) ∧
        WinText k'.win f (fitted o.truncate o.resize text) ∧
        InRange (newLen o.truncate o.resize text.length) o.offset o.len ∧
        m.len = wanted (newLen o.truncate o.resize text.length) o.offset o.len ∧
        o.offset + m.len ≤ (fitted o.truncate o.resize text).length ∧
        (0 < m.len → ∃ v, v.sec.file = some f ∧ WinSeen k'.win m v o.offset (decide (o.protect = .readWrite)) ∧
          WinAllows o.protect v.access ∧ k.win.next ≤ v.sec.id)) := by
  obtain ⟨k1, r1, e1, g1, kp1, er1, no1, ok1⟩ := winOpenedIf tab g fits was small tr
  have c := C158_open tab e1
  cases r1 with
  | error e =>
    exact ⟨k1, .error e, c, g1, kp1, fun e' h => by injection h with h; subst h; exact .inl (er1 _ rfl),
      fun m fd h => by cases h⟩
  | ok y =>
    obtain ⟨m, fd⟩ := y
    cases m with
    | some m =>
      refine ⟨k1, .ok (m, fd), c, g1, kp1, (fun e h => by cases h), ?_⟩
      intro m' fd' h
      injection h with h; injection h with h h'; subst h; subst h'
      obtain ⟨f, a, b, c, d⟩ := ok1 _ _ rfl
      exact ⟨f, a, b, c, d m rfl⟩
    | none =>
      exact ⟨k1.close fd, _, c, g1.close fd, kp1, fun e' h => .inr (no1 fd rfl), fun m fd h => by cases h⟩

/-- `winOpened`, with the figures worked out. -/
theorem winOpenedAs (tab : SysTable) {k : WinFs} (g : WinGood t k) {o : Options} (fits : Fits t o)
    {path : String} {text : List Byte} (was : WinFileWas k path text) (small : text.length < t.lim)
    (tr : o.openOptions.truncate = o.truncate) {size n : Nat} {new : List Byte}
    (hsize : newLen o.truncate o.resize text.length = size) (hin : InRange size o.offset o.len)
    (hn : wanted size o.offset o.len = n) (hnew : fitted o.truncate o.resize text = new) (pos : 0 < n) :
    ∃ k' r, k.open_ tab t o path = .ok (k', r) ∧ WinGood t k' ∧ WinOlder k.win k'.win ∧
      (∀ e, r = .error e → ∃ n, e.rawOsError = some n) ∧
      (∀ m fd, r = .ok (m, fd) → m.len = n ∧
        ∃ v f, v.sec.file = some f ∧ k'.names path = some f ∧ k'.opened fd = some (f, o.openOptions.write) ∧
          WinBears k'.win v.sec new ∧ o.offset + m.len ≤ new.length ∧
          WinSeen k'.win m v o.offset (decide (o.protect = .readWrite))) := by
  obtain ⟨k1, r1, e1, g1, kp1, er1, ok1⟩ := winOpened tab g fits was small tr
  rw [hsize] at er1
  rw [hsize, hn, hnew] at ok1
  refine ⟨k1, r1, e1, g1, kp1, fun e h => (er1 e h).resolve_right (fun h' => h' hin), fun m fd h => ?_⟩
  obtain ⟨f, a, b, c, -, d, e, f'⟩ := ok1 m fd h
  obtain ⟨v, h1, h2, -⟩ := f' (by omega)
  exact ⟨d, v, f, h1, a, b, c.bears h1, e, h2⟩

/-- An allocation. -/
theorem winAlloced {k : WinFs} (g : WinGood t k) {o : Options} (rw_ : o.protect = .readWrite) (off : o.offset = 0)
    (fits : WinAllocFits t k.win.gran 0 o.len) :
    ∃ s' r, WinDocMap.on k (k.win.alloc t o) = .ok ({ k with win := s' }, r) ∧ WinGood t { k with win := s' } ∧
      WinKeeps k.win s' ∧ (∀ e, r = .error e → ∃ n, e.rawOsError = some n) ∧
      (∀ m, r = .ok m → AllocLen k.win.gran 0 o.len m.len ∧ (0 < m.len → ∃ v text, WinBears s' v.sec text ∧
        0 + m.len ≤ text.length ∧ WinSeen s' m v 0 true)) := by
  obtain ⟨s', r, h1, rest, wf', hok, herr⟩ := C81_alloc_partial t g.wf.win (o := o) (by rw [off, Nat.zero_mod]; exact fits)
  rw [off, Nat.zero_mod] at hok
  have hview : (∀ x, x ∈ s'.views → ∀ f, x.sec.file = some f → f < k.nextFile) ∧ WinLaid t s' := by
    cases r with
    | error e =>
      have := (herr e rfl).1
      exact ⟨by rw [this]; exact g.wf.views, g.laid.sub (WinRest.keeps rest) (by rw [this]; exact List.Sublist.refl _)⟩
    | ok m =>
      obtain ⟨-, -, ⟨v, wm⟩, -⟩ := hok m rfl
      refine ⟨fun x hx f hf => ?_, (WinMap.laid g.laid (WinRest.keeps rest) wm).1⟩
      rw [wm.views] at hx
      rcases List.mem_cons.mp hx with rfl | hx
      · rw [wm.sec.2] at hf; cases hf
      · exact g.wf.views x hx f hf
  refine ⟨s', r, WinDocMap.on_ok h1, ⟨⟨wf', g.wf.names, ?_, g.wf.once, g.wf.opened, hview.1⟩, hview.2⟩, WinRest.keeps rest, ?_, ?_⟩
  · show ∀ f, _ ↔ ∃ n, s'.files f = some n
    rw [rest.files]; exact g.wf.files
  · intro e he
    obtain ⟨-, code, h | h⟩ := herr e he <;> exact ⟨code, by rw [h]; rfl⟩
  · intro m hm
    obtain ⟨a, -, ⟨v, wm⟩, -⟩ := hok m hm
    obtain ⟨n1, n2⟩ := rest.bytes.new _ wm.sec.1 wm.new
    refine ⟨a, fun pos => ⟨v, List.replicate m.len 0, ⟨fun f hf => ?_, fun i hi => ?_⟩, by simp, ?_⟩⟩
    · rw [wm.sec.2] at hf; cases hf
    · simp only [WinBytes.shown, wm.sec.2, n1]
      rw [List.length_replicate] at hi
      simp [List.getD_eq_getElem?_getD, hi]
    · have := WinMap.seen g.laid (WinRest.keeps rest) wm n2 pos
      rw [rw_] at this
      exact this

/-- Opening with `create_new` what is already there. -/
theorem winOpen_there (tab : SysTable) {k : WinFs} (g : WinGood t k) {o : Options} {path : String} {f : Nat}
    (there : k.names path = some f) (new : o.openOptions.createNew = true) :
    ∃ k' e, k.open_ tab t o path = .ok (k', .error e) := by
  rcases openFile_next tab g.wf o.openOptions path with ⟨k', code, h1, -⟩ | ⟨k', f', l, h1, op, -⟩
  · exact ⟨k', _, by simp only [WinFs.open_, h1]; rfl⟩
  · exfalso
    have found := op.found
    cases found with
    | there name may => rw [new] at may; cases may
    | new name => rw [there] at name; cases name

end Vmap
