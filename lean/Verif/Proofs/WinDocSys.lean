import Verif.Proofs.WinDocMap
import Verif.Proofs.WinWorks
import Verif.Props.Works
import Verif.Props.WinSettings
/- Helper lemmas for C160: the examples that need Windows to agree. -/
namespace Vmap
open Spec Win

variable {t : Target}

/-- Windows will decide as it would have, and names keep their files. -/
structure WinSteady (k k' : WinFs) : Prop where
  oracle : k'.win.oracle = k.win.oracle
  asks : k'.asks = k.asks
  names : ∀ p f, k.names p = some f → k'.names p = some f

theorem WinSteady.trans {a b c : WinFs} (h : WinSteady a b) (g : WinSteady b c) : WinSteady a c :=
  ⟨g.oracle.trans h.oracle, g.asks.trans h.asks, fun p f e => g.names p f (h.names p f e)⟩

theorem openFile_steady (tab : SysTable) (k : WinFs) (o : OpenOptions) (path : String) :
    WinSteady k (k.openFile tab o path).1 := by
  have io : ∀ {α : Type} (r : WinFs × Except Nat α), (WinFs.ioErr tab r).1 = r.1 := by
    rintro α ⟨a, r⟩; cases r <;> rfl
  unfold WinFs.openFile
  split
  · exact ⟨rfl, rfl, fun _ _ h => h⟩
  · rw [io]
    unfold WinFs.createFile
    simp only
    split
    · split
      · split
        · exact ⟨rfl, rfl, fun _ _ h => h⟩
        · exact ⟨rfl, rfl, fun _ _ h => h⟩
        · exact ⟨rfl, rfl, fun _ _ h => h⟩
        · split <;> exact ⟨rfl, rfl, fun _ _ h => h⟩
        · split <;> exact ⟨rfl, rfl, fun _ _ h => h⟩
      · rename_i no
        split
        · exact ⟨rfl, rfl, fun _ _ h => h⟩
        · exact ⟨rfl, rfl, fun _ _ h => h⟩
        all_goals
          refine ⟨rfl, rfl, fun p f h => ?_⟩
          simp only [WinFs.addHandle, WinFs.newEmpty]
          rw [if_neg]
          · exact h
          · rintro rfl
            rw [h] at no
            cases no
    · exact ⟨rfl, rfl, fun _ _ h => h⟩

theorem handleNew_oracle {s s' : Vmap.Win} {op file prot len r} (h : s.handleNew t op file prot len = .ok (s', r)) :
    s'.oracle = s.oracle := by
  simp only [Win.handleNew, bind, Except.bind] at h
  split at h
  · cases h
  · unfold createFileMapping at h
    simp only at h
    split at h <;> rename_i h1 <;> split at h1 <;> cases h1 <;> cases h <;> rfl

theorem mapView_oracle (s : Vmap.Win) (hd : Nat) (acc : WinAccess) (hi lo len at' : Nat) :
    (s.mapViewOfFileEx t hd acc hi lo len at').1.oracle = s.oracle := by
  unfold mapViewOfFileEx
  simp only
  split
  · rfl
  · split <;> split <;> split <;> rfl

theorem view_oracle {s s' : Vmap.Win} {hd op acc off len at' r} (h : s.view t hd op acc off len at' = .ok (s', r)) :
    s'.oracle = s.oracle := by
  simp only [Win.view, bind, Except.bind] at h
  split at h
  · cases h
  · rename_i hi _
    have := mapView_oracle (t := t) s hd acc hi (lo32 off) len at'
    revert h this
    generalize s.mapViewOfFileEx t hd acc hi (lo32 off) len at' = x
    obtain ⟨s1, r1⟩ := x
    cases r1 <;> intro h this <;> cases h <;> exact this

theorem mapFile_oracle {s s' : Vmap.Win} {file off len prot r} (h : s.mapFile t file off len prot = .ok (s', r)) :
    s'.oracle = s.oracle := by
  simp only [Win.mapFile, bind, Except.bind] at h
  split at h
  · cases h
  · rename_i x h1
    obtain ⟨s1, r1⟩ := x
    have o1 := handleNew_oracle h1
    cases r1 with
    | error e => cases h; exact o1
    | ok hd =>
      simp only at h
      split at h
      · cases h
      · rename_i y h2
        have o2 := view_oracle (r := y.2) h2
        cases h
        exact o2.trans o1

theorem mapStep_oracle {s s' : Vmap.Win} {o : Options} {file flen r} (h : s.mapStep t o file flen = .ok (s', r)) :
    s'.oracle = s.oracle := by
  simp only [Win.mapStep, bind, Except.bind] at h
  split at h
  · cases h; rfl
  split at h
  · cases h
  split at h
  · cases h; rfl
  split at h
  · cases h
  split at h
  · cases h
  split at h
  · cases h
  split at h
  · cases h
  rename_i x h1
  obtain ⟨s1, r1⟩ := x
  have := mapFile_oracle h1
  cases r1 <;> cases h <;> exact this

/-- Mapping that does not change the file's length, and may. -/
theorem mapIf_steady (tab : SysTable) {k k' : WinFs} {o : Options} {h : Nat} {r f wr} (hh : k.opened h = some (f, wr))
    (tr : o.truncate = false) (rs : o.resize = .endOf) (may : o.protect = .readWrite → wr = true)
    (e : k.mapIf tab t o h = .ok (k', r)) : WinSteady k k' ∧ k'.opened = k.opened ∧ k'.names = k.names := by
  simp only [WinFs.mapIf, hh, bind, Except.bind] at e
  rw [mapIfAs_may tab t k.win f may (by rw [tr, rs]; simp)] at e
  split at e
  · cases e
  · rename_i x h1
    obtain ⟨s1, r1⟩ := x
    have : s1.oracle = k.win.oracle := by
      unfold Win.mapIf at h1
      split at h1
      · rename_i h2
        cases h1
        unfold Win.fileLen at h2
        revert h2
        cases k.win.files f with
        | none => intro h2; cases h2; rfl
        | some n =>
          simp only
          split <;> intro h2 <;> cases h2 <;> rfl
      · rename_i s2 n h2
        have o2 : s2.oracle = k.win.oracle := by
          unfold Win.fileLen at h2
          revert h2
          cases k.win.files f with
          | none => intro h2; cases h2
          | some n =>
            simp only
            split <;> intro h2 <;> cases h2 <;> rfl
        simp only [truncateStep, tr, Bool.false_and, Bool.false_eq_true, if_false, resizeStep, rs] at h1
        exact (mapStep_oracle h1).trans o2
    cases e
    exact ⟨⟨this, rfl, fun _ _ h => h⟩, rfl, rfl⟩

/-- Opening and mapping, the same. -/
theorem openIf_steady (tab : SysTable) {k k' : WinFs} {o : Options} {path : String} {r} (g : WinFsWf t k)
    (tr : o.truncate = false) (rs : o.resize = .endOf) (may : o.protect = .readWrite → o.openOptions.write = true)
    (e : k.openIf tab t o path = .ok (k', r)) : WinSteady k k' := by
  have s1 := openFile_steady tab k o.openOptions path
  have op := openFile_next tab g o.openOptions path
  unfold WinFs.openIf at e
  revert e s1 op
  generalize k.openFile tab o.openOptions path = x
  obtain ⟨k1, r1⟩ := x
  intro e s1 op
  cases r1 with
  | error err => cases e; exact s1
  | ok h =>
    have hh : ∃ f, k1.opened h = some (f, o.openOptions.write) := by
      rcases op with ⟨k', code, h1, -⟩ | ⟨k', f, l, h1, op, -⟩
      · cases h1
      · cases h1
        exact ⟨f, by rw [op.opened]; exact if_pos rfl⟩
    obtain ⟨f, hh⟩ := hh
    simp only [bind, Except.bind] at e
    split at e
    · cases e
    · rename_i y h2
      obtain ⟨k2, r2⟩ := y
      obtain ⟨s2, -⟩ := mapIf_steady tab hh tr rs may h2
      cases r2 <;> cases e <;> exact s1.trans ⟨s2.oracle, s2.asks, s2.names⟩

theorem open_steady (tab : SysTable) {k k' : WinFs} {o : Options} {path : String} {m fd} (g : WinFsWf t k)
    (tr : o.truncate = false) (rs : o.resize = .endOf) (may : o.protect = .readWrite → o.openOptions.write = true)
    (e : k.open_ tab t o path = .ok (k', .ok (m, fd))) : WinSteady k k' := by
  refine openIf_steady tab (path := path) (r := .ok (some m, fd)) g tr rs may ?_
  unfold WinFs.open_ at e
  unfold WinFs.openIf
  revert e
  generalize k.openFile tab o.openOptions path = x
  obtain ⟨k1, r1⟩ := x
  intro e
  cases r1 with
  | error err => cases e
  | ok h =>
    simp only [WinFs.map, bind, Except.bind] at e ⊢
    split at e
    · cases e
    · rename_i y h2
      split at h2
      · cases h2
      · rename_i z h3
        obtain ⟨k2, r2⟩ := z
        rcases r2 with e' | (_ | m')
        · cases h2; cases e
        · cases h2; cases e
        · cases h2; cases e; rfl

theorem drop_steady {k k' : WinFs} {m : MapMut} (e : WinDocMap.drop t k m = .ok k') : WinSteady k k' := by
  simp only [WinDocMap.drop, bind, Except.bind] at e
  split at e
  · cases e
  · rename_i s h
    cases e
    refine ⟨?_, rfl, fun _ _ h => h⟩
    have un : ∀ a l, (k.win.unmap a l).1.oracle = k.win.oracle := by
      intro a l
      unfold Win.unmap unmapViewOfFile
      simp only
      split <;> rename_i h <;> split at h <;> cases h <;> rfl
    unfold Win.dropMap at h
    simp only [bind, Except.bind] at h
    split at h
    · split at h
      · cases h
      · cases h; exact un _ _
    · cases h; rfl

/-- `into_map_mut` on a map, exactly. -/
theorem WinSeen.protects {k : WinFs} (g : WinGood t k) {m v off w} (s : WinSeen k.win m v off w) {p : Protect}
    (acc : WinAllows p v.access) :
    ∃ s' r, WinDocMap.on k (k.win.intoMapMut t ⟨m⟩) = .ok ({ k with win := s' }, r) ∧ WinStill k.win s' ∧
      s'.oracle = k.win.oracle ∧ (∀ e b, r = .error (e, b) → b = ⟨m⟩) ∧ (∀ m', r = .ok m' → m' = m) ∧
      ((∃ m', r = .ok m') ↔ (k.win.oracle k.win.tick).ok = true ∧ (p = .readWrite ∨ p = .readCopy)) := by
  obtain ⟨addr, sz, h, pages⟩ := s.whole g
  obtain ⟨s2, r, h1, -, h3, h4, h5, h6, h7⟩ := C82_protect k.win addr sz .readWrite
  have ho : s2.oracle = k.win.oracle := by
    have : (k.win.protect addr sz .readWrite).1.oracle = k.win.oracle := by
      rw [Win.protect, win_wrap_fst, Win.virtualProtect]
      split <;> rfl
    rw [h1] at this
    exact this
  have key : r = .ok () ↔ (k.win.oracle k.win.tick).ok = true ∧ (p = .readWrite ∨ p = .readCopy) := by
    rw [h6]
    refine and_congr_right fun _ => ?_
    have hu := g.wf.win.page_pos
    constructor
    · intro h
      have := pages.upper
      have := pages.lower
      have := s.pos
      obtain ⟨x, x1, x2, x3⟩ := h m.ptr (by omega) (by omega)
      have hx := g.laid.addr_inj x1 s.mem x2 (win_page_on g.wf.win s.mv s.pos)
      subst hx
      exact x3.imp acc.write.mp acc.copy.mp
    · intro h x x1 x2
      refine ⟨v, s.mem, ?_, h.imp acc.write.mpr acc.copy.mpr⟩
      obtain ⟨q1, q2⟩ := (pages.on hu (x / k.win.page)).mp ⟨x, x1, x2, rfl⟩
      obtain ⟨a, b, c, d⟩ := s.mv
      refine ⟨?_, by omega⟩
      obtain ⟨j, hk⟩ := Nat.dvd_trans g.wf.win.page_dvd a
      have hk' : v.base = j * k.win.page := by rw [hk, Nat.mul_comm]
      have : j < x / k.win.page + 1 := Nat.lt_of_mul_lt_mul_right (a := k.win.page) (by omega)
      have := Nat.mul_le_mul_right k.win.page (show j ≤ x / k.win.page by omega)
      omega
  have still := WinStill.protect k.win addr sz .readWrite
  rw [h1] at still
  cases r with
  | ok u =>
    refine ⟨s2, .ok m, WinDocMap.on_ok ?_, still, ho, (fun e b h => by cases h), (fun m' h => by cases h; rfl), ?_⟩
    · simp only [Win.intoMapMut, h, h1, bind, Except.bind]; rfl
    · exact ⟨fun _ => key.mp rfl, fun _ => ⟨m, rfl⟩⟩
  | error e =>
    refine ⟨s2, .error (e, ⟨m⟩), WinDocMap.on_ok ?_, still, ho, (fun e b h => by cases h; rfl), (fun m' h => by cases h), ?_⟩
    · simp only [Win.intoMapMut, h, h1, bind, Except.bind]; rfl
    · constructor
      · rintro ⟨m', h⟩; cases h
      · intro h; have := key.mpr h; cases this

theorem Spec.WinAgrees.steady {k k' : WinFs} (h : WinAgrees k) (s : WinSteady k k') : WinAgrees k' :=
  ⟨by rw [s.oracle]; exact h.ok, by rw [s.asks]; exact h.asks⟩

/-- A range beyond the end of the file. -/
theorem mapIf_none (tab : SysTable) {k : WinFs} (agrees : WinAgrees k) {o : Options} {h f len : Nat} {wr : Bool}
    (hh : k.opened h = some (f, wr)) (hf : k.win.files f = some len) (small : len < t.lim) (tr : o.truncate = false)
    (rs : o.resize = .endOf) (may : o.protect = .readWrite → wr = true) (no : ¬ InRange len o.offset o.len) :
    ∃ s', k.mapIf tab t o h = .ok ({ k with win := s' }, .ok none) := by
  have hok : k.win.choice.ok = true := agrees.ok _
  have e1 : k.win.fileLen tab f = (k.win.did (.getFileInfo f), .ok len) := by
    simp only [Win.fileLen, hf, hok, if_true, Win.ioErr]
  have hmod : asUsize t len = len := Nat.mod_eq_of_lt small
  refine ⟨k.win.did (.getFileInfo f), ?_⟩
  simp only [WinFs.mapIf, hh, mapIfAs_may tab t k.win f may (by rw [tr, rs]; simp), Win.mapIf, e1, truncateStep, tr,
    Bool.false_and, Bool.false_eq_true, if_false, resizeStep, rs, hmod, Win.mapStep]
  by_cases ho : len < o.offset
  · rw [if_pos ho]; rfl
  · rw [if_neg ho, subU_ok (by omega)]
    simp only [bind, Except.bind, mapLen_none no (by omega : o.offset ≤ _)]
    rfl

/-- The same, by name. -/
theorem openIf_none (tab : SysTable) {k : WinFs} (g : WinFsWf t k) (agrees : WinAgrees k) {l : Nat} {path : String}
    {text : List Byte} (has : WinFileHas k path text) (small : text.length < t.lim) (no : text.length < l) :
    ∃ k', k.openIf tab t (Options.new.setLen (.exact l)) path = .ok (k', .ok (none, k.nextHandle)) := by
  obtain ⟨f, nm, tx⟩ := has
  have no' : ¬ InRange text.length (Options.new.setLen (.exact l)).offset (Options.new.setLen (.exact l)).len := by
    show ¬ 0 + l ≤ text.length
    omega
  obtain ⟨k1, f1, e1, kept, hh, hf, -, ha⟩ := openFile_win_willing tab g (o := Options.new.setLen (.exact l)) (path := path)
    (old := text.length)
    ⟨agrees.asks, (fun h => by rcases h with h | h | h <;> cases h), .inl ⟨f, _, nm, tx.size, rfl, rfl⟩⟩
    ⟨(fun h => by cases h), (fun h => by rcases h with h | h | h <;> first | cases h | exact absurd rfl h), (by show 0 < 2 ^ 63; decide),
      fun h => absurd h no'⟩
  obtain ⟨s', e2⟩ := mapIf_none (t := t) tab (k := k1)
    ⟨by rw [kept.oracle]; exact agrees.ok, by rw [ha]; exact agrees.asks⟩ hh hf small
    (o := Options.new.setLen (.exact l)) rfl rfl (fun h => by cases h) no'
  exact ⟨{ k1 with win := s' }, by simp only [WinFs.openIf, e1, e2, bind, Except.bind]; rfl⟩

/-- A range inside the file. -/
theorem mapIf_some (tab : SysTable) {k : WinFs} (g : WinFsWf t k) {o : Options} {h f len addr n : Nat} {wr : Bool}
    (sys : WinWilling t k.win addr n) (fits : Fits t o)
    (hh : k.opened h = some (f, wr)) (hf : k.win.files f = some len) (small : len < t.lim) (tr : o.truncate = false)
    (rs : o.resize = .endOf) (may : o.protect = .readWrite → wr = true) (off : o.offset = 0)
    (yes : InRange len 0 o.len) (pos : 0 < wanted len 0 o.len) (room : wanted len 0 o.len ≤ n) :
    ∃ s', k.mapIf tab t o h = .ok ({ k with win := s' }, .ok (some ⟨addr, wanted len 0 o.len⟩)) := by
  have nl : newLen o.truncate o.resize len = len := by rw [tr, rs]; rfl
  obtain ⟨c, -⟩ := C133_windows_map_if tab g.win sys fits hf small
    ⟨(fun h => by rcases h with h | h; · rw [tr] at h; cases h
                  · exact absurd rs h), (by rw [rs]; decide), fun _ => by rw [nl, off]; omega⟩
    (by rw [nl, off, Nat.zero_mod]; exact room)
  rw [nl, off, Nat.zero_mod] at c
  obtain ⟨s', e⟩ := c yes
  refine ⟨s', ?_⟩
  simp only [WinFs.mapIf, hh, mapIfAs_may tab t k.win f may (by rw [tr, rs]; simp), e, bind, Except.bind]
  rfl

/-- A byte is written to a copy-on-write map: other views show what they did. -/
theorem WinSeen.copyStore {k : WinFs} (g : WinGood t k) {m v off w} (s : WinSeen k.win m v off w)
    {text : List Byte} (tx : WinBears k.win v.sec text) {i : Nat} (hi : i < m.len) (hl : off + i < text.length)
    (cp : v.access.copy = true) (nw : v.access.write = false) (b : Byte) :
    ∃ by', k.win.store (m.ptr + i) b = .ok { k.win with bytes := by' } ∧ by'.file = k.win.bytes.file ∧
      ∀ id, id ≠ v.sec.id → by'.own id = k.win.bytes.own id := by
  obtain ⟨m1, m2, m3, m4⟩ := s.mv
  have hl := s.load g tx hi hl
  unfold Win.store
  rw [g.laid.look s.mem ⟨by omega, by omega⟩]
  simp only [nw, cp, hl, Bool.false_eq_true, if_false, if_true]
  refine ⟨_, rfl, rfl, fun id h => ?_⟩
  funext a
  simp only [h, false_and, if_false]

end Vmap
