import Verif.Proofs.WinMapTests
/-
C165: the tests of maps in the crate's own test suite, on Windows.
-/
namespace Vmap
open Spec

variable {t : Target} {k : WinFs} {path : String}

/-- C165: `alloc_min`. -/
theorem C165_alloc_min (g : WinGood t k) (fits : 100 + k.win.gran < t.lim) : WinFine (WinMapTests.allocMin t k) := by
  obtain ⟨s1, r1, e1, g1, kp1, er1, ok1⟩ := winAllocedAt g (o := Options.newMut.setLen (.min 100)) rfl (d := 0)
    (Nat.zero_mod _) (by show 0 + 100 + k.win.gran < t.lim; omega)
  refine .ask e1 er1 ?_
  intro m h
  obtain ⟨hl, hv⟩ := ok1 m h
  obtain ⟨a1, a2, a3⟩ : 100 ≤ m.len ∧ k.win.gran ∣ 0 + m.len ∧ m.len < 100 + k.win.gran := hl
  obtain ⟨v, tx, s⟩ := hv (by omega)
  rw [Nat.zero_add] at a2 tx
  obtain ⟨a, b, -, hb, -, hbits⟩ := g.wf.win.sizes
  have hround : s1.sizeAlloc.round t 100 = .ok m.len := by
    have h := round_eq (t := t) (k := b) (len := 100) (by omega) (by rw [← hb]; exact fits)
    rw [← hb] at h
    simp only [Win.sizeAlloc, Win.systemInfo, kp1.gran]
    rw [h]
    congr 1
    refine IsRoundUp.unique (isRoundUp_div (len := 100) g.wf.win.gran_pos) ⟨a2, a1, fun c hc hc' => ?_⟩
    obtain ⟨u, hu⟩ := a2
    obtain ⟨w, hw⟩ := hc
    rw [hu] at a3 ⊢
    rw [hw] at hc' ⊢
    refine Nat.mul_le_mul_left _ ?_
    refine Nat.le_of_not_lt fun hlt => ?_
    have := Nat.mul_le_mul_left k.win.gran (show w + 1 ≤ u from hlt)
    rw [Nat.mul_add] at this
    omega
  refine .next hround (.next (assert_of rfl) ?_)
  have hle : 0 + m.len ≤ (List.replicate m.len (0 : Byte)).length := by rw [List.length_replicate]; omega
  refine .next (s.shows g1 tx hle (Nat.zero_le _) (by omega) ?_) ?_
  · simp only [List.drop_replicate, List.take_replicate]; congr 1; omega
  obtain ⟨y3, e3, g3, tx3, s3, -⟩ := s.put g1 tx hle (new := MapTests.hello) (by show 5 ≤ m.len; omega)
  refine .next e3 (.next (s3.shows g3 tx3 ?_ (Nat.zero_le _) (by omega) ?_) (.ok _))
  · simp only [List.length_append, List.length_take, List.length_drop, List.length_replicate]
    have : MapTests.hello.length = 5 := rfl
    omega
  · simp only [List.take_zero, List.nil_append, Nat.zero_add, List.drop_zero]
    rw [List.take_append_of_le_length (by decide)]; rfl

example : WinFine (WinMapTests.allocMin ⟨.w64, true⟩ (winDir [] [])) :=
  C165_alloc_min (winDir_good _ _) (by decide)

example : winEnded (WinMapTests.allocMin ⟨.w64, true⟩ (winDir [] [])) = true := by decide +kernel

/-- C165: `alloc_exact`. -/
theorem C165_alloc_exact (g : WinGood t k) : WinFine (WinMapTests.allocExact t k) := by
  obtain ⟨s1, r1, e1, g1, kp1, er1, ok1⟩ := winAllocedAt g (o := Options.newMut.setLen (.exact 5)) rfl (d := 0)
    (Nat.zero_mod _) (by show 0 + 5 < t.lim; exact lim_small)
  refine .ask e1 er1 ?_
  intro m h
  obtain ⟨hl, hv⟩ := ok1 m h
  have hl : m.len = 5 := hl
  obtain ⟨v, tx, s⟩ := hv (by omega)
  rw [hl] at tx
  have hle : 0 + m.len ≤ (List.replicate (0 + 5) (0 : Byte)).length := by rw [hl]; decide
  refine .next (assert_of hl) ?_
  refine .next (s.shows g1 tx hle (Nat.zero_le _) (Nat.le_refl _) (by rw [hl]; rfl)) ?_
  obtain ⟨y3, e3, g3, tx3, s3, -⟩ := s.put g1 tx hle (new := MapTests.hello) (by rw [hl]; decide)
  refine .next e3 (.next (s3.shows g3 tx3 (by rw [hl]; decide) (Nat.zero_le _) (Nat.le_refl _) (by rw [hl]; rfl)) (.ok _))

example : WinFine (WinMapTests.allocExact ⟨.w64, true⟩ (winDir [] [])) :=
  C165_alloc_exact (winDir_good _ _)

example : winEnded (WinMapTests.allocExact ⟨.w64, true⟩ (winDir [] [])) = true := by decide +kernel

/-- C165: `alloc_offset`. -/
theorem C165_alloc_offset (g : WinGood t k) (page : 5 < k.win.page) (fits : k.win.gran + 1 < t.lim) :
    WinFine (WinMapTests.allocOffset t k) := by
  obtain ⟨a, b, -, hb, -, hbits⟩ := g.wf.win.sizes
  have hpg : k.win.page ≤ k.win.gran := Nat.le_of_dvd g.wf.win.gran_pos g.wf.win.page_dvd
  have hsize : k.win.sizeAlloc.size t 1 = .ok k.win.gran := by
    have := C03_size t b 1 (by omega) (by rw [Nat.one_mul, ← hb]; omega)
    rw [Nat.one_mul, ← hb] at this
    exact this
  have hoff : (k.win.gran - 5) % k.win.page = k.win.page - 5 := by
    obtain ⟨c, hc⟩ := g.wf.win.page_dvd
    cases c with
    | zero => rw [hc] at hpg; omega
    | succ c =>
      rw [hc, Nat.mul_add, Nat.mul_one, Nat.add_sub_assoc (by omega), Nat.mul_add_mod, Nat.mod_eq_of_lt (by omega)]
  refine .next hsize (.next (subU_ok (by omega)) ?_)
  obtain ⟨s1, r1, e1, g1, kp1, er1, ok1⟩ := winAllocedAt g
    (o := (Options.newMut.setOffset (k.win.gran - 5)).setLen (.exact 6)) rfl (d := k.win.page - 5)
    hoff (by show k.win.page - 5 + 6 < t.lim; omega)
  refine .ask e1 er1 ?_
  intro m h
  obtain ⟨hl, hv⟩ := ok1 m h
  have hl : m.len = 6 := hl
  obtain ⟨v, tx, s⟩ := hv (by omega)
  rw [hl] at tx
  generalize hd : k.win.page - 5 = d at tx s
  cases hp : s1.protect (ptrAdd t m.ptr 5) 1 .readOnly with
  | mk s2 r2 =>
  have st : WinStill s1 s2 := by have := WinStill.protect s1 (ptrAdd t m.ptr 5) 1 .readOnly; rw [hp] at this; exact this
  refine .ask (WinDocMap.on_ok (k := { k with win := s1 }) (s := s2) (a := r2) rfl)
    (fun e he => by subst he; exact win_wrap_raw hp) ?_
  intro _ _
  have hle : d + m.len ≤ (List.replicate (d + 6) (0 : Byte)).length := by
    rw [List.length_replicate, hl]; omega
  have s2' := s.still st
  have g2 := WinGood.still g1 st
  have tx2 := tx.still st
  refine .next (assert_of hl) ?_
  refine .next (WinSeen.shows g2 s2' tx2 hle (Nat.zero_le _) (Nat.le_refl _) ?_) ?_
  · simp only [List.drop_replicate, List.take_replicate, hl]; congr 1; omega
  obtain ⟨y3, e3, g3, tx3, s3, -⟩ := WinSeen.put g2 s2' tx2 hle (new := MapTests.hello) (by rw [hl]; decide)
  have h5 : MapTests.hello.length = 5 := rfl
  refine .next e3 (.next (WinSeen.shows g3 s3 tx3 ?_ (Nat.zero_le _) (Nat.le_refl _) ?_) (.ok _))
  · simp only [List.length_append, List.length_take, List.length_drop, List.length_replicate]
    omega
  · simp only [Nat.add_zero, List.take_replicate, List.drop_replicate, List.append_assoc]
    rw [Nat.min_eq_left (by omega), List.drop_append_of_le_length (by rw [List.length_replicate]; omega),
      List.drop_replicate, Nat.sub_self, h5, hl, show d + 6 - (d + 5) = 1 by omega]
    rfl

example : WinFine (WinMapTests.allocOffset ⟨.w64, true⟩ (winDir [] [])) :=
  C165_alloc_offset (winDir_good _ _) (by decide) (by decide)

example : winEnded (WinMapTests.allocOffset ⟨.w64, true⟩ (winDir [] [])) = true := by decide +kernel

/-- C165: `read_end`. -/
theorem C165_read_end (tab : SysTable) (g : WinGood t k) (has : WinFileHas k path DocMap.about) :
    WinFine (WinMapTests.readEnd tab t k path) := by
  obtain ⟨k1, r1, e1, g1, -, er1, ok1⟩ := winOpenedAs tab g (o := Options.new.setOffset 29)
    ⟨trivial, trivial, lim_small⟩ (.inl has) lim_small rfl (size := 67) (n := 38)
    (new := DocMap.about) rfl (by show 29 ≤ 67; decide) rfl rfl (by decide)
  refine .ask e1 er1 ?_
  rintro ⟨m, fd⟩ h
  obtain ⟨hl, v, f, -, -, -, tx, hle, s⟩ := ok1 m fd h
  refine .next (assert_of (by omega)) (.next (subU_ok (by decide)) (.next (assert_of (by rw [hl]; rfl)) ?_))
  exact .next (s.shows g1 tx hle (Nat.zero_le _) (by omega) (by rfl)) (.ok _)

example : WinFine (WinMapTests.readEnd docTab ⟨.w64, true⟩ (winDir [] DocMap.about) "data") :=
  C165_read_end docTab (winDir_good _ _) (winDir_has _ _)

example : winEnded (WinMapTests.readEnd docTab ⟨.w64, true⟩ (winDir [] DocMap.about) "data") = true := by
  decide +kernel

/-- C165: `read_min`. -/
theorem C165_read_min (tab : SysTable) (g : WinGood t k) (has : WinFileHas k path DocMap.about) :
    WinFine (WinMapTests.readMin tab t k path) := by
  obtain ⟨k1, r1, e1, g1, -, er1, ok1⟩ := winOpenedAs tab g (o := (Options.new.setOffset 29).setLen (.min 30))
    ⟨trivial, lim_small, lim_small⟩ (.inl has) lim_small rfl (size := 67) (n := 38)
    (new := DocMap.about) rfl (by show 29 + 30 ≤ 67; decide) rfl rfl (by decide)
  refine .ask e1 er1 ?_
  rintro ⟨m, fd⟩ h
  obtain ⟨hl, v, f, -, -, -, tx, hle, s⟩ := ok1 m fd h
  refine .next (assert_of (by omega)) (.next (subU_ok (by decide)) (.next (assert_of (by rw [hl]; rfl)) ?_))
  exact .next (s.shows g1 tx hle (Nat.zero_le _) (by omega) (by rfl)) (.ok _)

example : WinFine (WinMapTests.readMin docTab ⟨.w64, true⟩ (winDir [] DocMap.about) "data") :=
  C165_read_min docTab (winDir_good _ _) (winDir_has _ _)

example : winEnded (WinMapTests.readMin docTab ⟨.w64, true⟩ (winDir [] DocMap.about) "data") = true := by
  decide +kernel

/-- C165: `read_max`. -/
theorem C165_read_max (tab : SysTable) (g : WinGood t k) (has : WinFileHas k path DocMap.about) :
    WinFine (WinMapTests.readMax tab t k path) := by
  obtain ⟨k1, r1, e1, g1, -, er1, ok1⟩ := winOpenedAs tab g (o := (Options.new.setOffset 29).setLen (.max 30))
    ⟨trivial, lim_small, lim_small⟩ (.inl has) lim_small rfl (size := 67) (n := 30)
    (new := DocMap.about) rfl (by show 29 ≤ 67; decide) rfl rfl (by decide)
  refine .ask e1 er1 ?_
  rintro ⟨m, fd⟩ h
  obtain ⟨hl, v, f, -, -, -, tx, hle, s⟩ := ok1 m fd h
  refine .next (assert_of hl) ?_
  exact .next (s.shows g1 tx hle (Nat.zero_le _) (Nat.le_refl _) (by rw [hl]; rfl)) (.ok _)

example : WinFine (WinMapTests.readMax docTab ⟨.w64, true⟩ (winDir [] DocMap.about) "data") :=
  C165_read_max docTab (winDir_good _ _) (winDir_has _ _)

example : winEnded (WinMapTests.readMax docTab ⟨.w64, true⟩ (winDir [] DocMap.about) "data") = true := by
  decide +kernel

/-- C165: `read_exact`. -/
theorem C165_read_exact (tab : SysTable) (g : WinGood t k) (has : WinFileHas k path DocMap.about) :
    WinFine (WinMapTests.readExact tab t k path) := by
  obtain ⟨k1, r1, e1, g1, -, er1, ok1⟩ := winOpenedAs tab g (o := (Options.new.setOffset 29).setLen (.exact 30))
    ⟨trivial, lim_small, lim_small⟩ (.inl has) lim_small rfl (size := 67) (n := 30)
    (new := DocMap.about) rfl (by show 29 + 30 ≤ 67; decide) rfl rfl (by decide)
  refine .ask e1 er1 ?_
  rintro ⟨m, fd⟩ h
  obtain ⟨hl, v, f, -, -, -, tx, hle, s⟩ := ok1 m fd h
  refine .next (assert_of hl) ?_
  exact .next (s.shows g1 tx hle (Nat.zero_le _) (Nat.le_refl _) (by rw [hl]; rfl)) (.ok _)

example : WinFine (WinMapTests.readExact docTab ⟨.w64, true⟩ (winDir [] DocMap.about) "data") :=
  C165_read_exact docTab (winDir_good _ _) (winDir_has _ _)

example : winEnded (WinMapTests.readExact docTab ⟨.w64, true⟩ (winDir [] DocMap.about) "data") = true := by
  decide +kernel

/-- C165: `copy`. -/
theorem C165_copy (tab : SysTable) (g : WinGood t k) (has : WinFileHas k path DocMap.about) :
    WinFine (WinMapTests.copy tab t k path) := by
  have in1 : InRange (newLen false .endOf DocMap.about.length) 29 (.exact 30) := by show 29 + 30 ≤ 67; decide
  obtain ⟨k1, r1, e1, g1, -, er1, ok1⟩ := winOpened tab g (o := ((Options.newMut.setOffset 29).setLen (.exact 30)).copy)
    ⟨trivial, lim_small, lim_small⟩ (.inl has) lim_small rfl
  refine .ask e1 (fun e h => (er1 e h).resolve_right (fun h' => h' in1)) ?_
  rintro ⟨m, fd⟩ h
  obtain ⟨f, -, -, tx, -, hl, -, hv⟩ := ok1 m fd h
  have hl : m.len = 30 := hl
  have tx : WinText k1.win f DocMap.about := tx
  obtain ⟨v, hf, s, acc, -⟩ := hv (by omega)
  have s : WinSeen k1.win m v 29 false := s
  have nw : v.access.write = false := by
    cases h : v.access.write with
    | false => rfl
    | true => cases acc.write.mp h
  have look : ∀ x, m.ptr ≤ x → x < m.ptr + 30 → k1.win.look x = some v := by
    intro x h1 h2
    obtain ⟨m1, m2, m3, m4⟩ := s.mv
    exact g1.laid.look s.mem ⟨by omega, by omega⟩
  have load : ∀ x, m.ptr ≤ x → x < m.ptr + 30 → k1.win.load x = .ok (DocMap.fast.getD (x - m.ptr) 0) := by
    intro x h1 h2
    have := s.load g1 (tx.bears hf) (i := x - m.ptr) (by omega) (by show _ < 67; omega)
    rw [Nat.add_sub_cancel' h1] at this
    rw [this]
    congr 1
    have : ∀ i, i < 30 → DocMap.about.getD (29 + i) 0 = DocMap.fast.getD i 0 := by decide
    exact this _ (by omega)
  refine .next (assert_of hl) ?_
  refine .next (s.shows g1 (tx.bears hf) (by rw [hl]; decide) (Nat.zero_le _) (Nat.le_refl _) (by rw [hl]; rfl)) ?_
  obtain ⟨y, e2, load2⟩ := win_copy_storeN (acc.copy.mpr rfl) nw DocMap.nice look load (Nat.le_refl _)
    (by show m.ptr + 4 ≤ _; omega)
  refine .next (x := WinDocMap.put k1 m DocMap.nice) (a := { k1 with win := { k1.win with bytes := y } })
    (by rw [WinDocMap.put, if_pos (by show 4 ≤ m.len; omega), e2]; rfl) ?_
  refine .next (a := ()) ?_ (.ok _)
  rw [WinDocMap.shows, if_pos ⟨Nat.zero_le _, Nat.le_refl _⟩]
  have := win_loadN (s := { k1.win with bytes := y }) (DocMap.nice ++ DocMap.fast.drop 4) (m.ptr + 0) (fun i hi => by
    have hi : i < 30 := hi
    rw [Nat.add_zero, load2 _ (by omega) (by omega), Nat.add_sub_cancel_left]
    have : ∀ i, i < 30 → (if i < DocMap.nice.length then DocMap.nice.getD i 0 else DocMap.fast.getD i 0) =
      (DocMap.nice ++ DocMap.fast.drop 4).getD i 0 := by decide
    rw [← this i hi]
    congr 1
    by_cases h : i < DocMap.nice.length
    · rw [if_pos h, if_pos (by omega)]
    · rw [if_neg h, if_neg (by omega)])
  rw [show m.len - 0 = (DocMap.nice ++ DocMap.fast.drop 4).length from hl, this]
  simp only [bind, Except.bind, Doc.assert, decide_true, if_true]

example : WinFine (WinMapTests.copy docTab ⟨.w64, true⟩ (winDir [] DocMap.about) "data") :=
  C165_copy docTab (winDir_good _ _) (winDir_has _ _)

example : winEnded (WinMapTests.copy docTab ⟨.w64, true⟩ (winDir [] DocMap.about) "data") = true := by
  decide +kernel

/-- C165: `write_into_mut`. -/
theorem C165_write_into_mut (tab : SysTable) (g : WinGood t k) (has : WinFileHas k path DocMap.this) :
    WinFine (WinMapTests.writeIntoMut tab t k path) := by
  obtain ⟨k1, r1, e1, g1, -, er1, ok1⟩ := winOpenedAs tab g (o := Options.new.write.setResize (.exact 16))
    ⟨lim_small, trivial, t.lim_pos⟩ (.inl has) lim_small rfl (size := 16) (n := 16)
    (new := DocMap.this ++ [0, 0]) rfl (by show 0 ≤ 16; decide) rfl rfl (by decide)
  refine .ask e1 er1 ?_
  rintro ⟨m, fd⟩ h
  obtain ⟨hl, v, f, hf, nm, -, tx, hle, s⟩ := ok1 m fd h
  refine .next (assert_of hl.symm) ?_
  refine .next (s.shows g1 tx hle (Nat.zero_le _) (by omega) (by rfl)) ?_
  refine .next (s.shows g1 tx hle (Nat.zero_le _) (Nat.le_refl _) (by rw [hl]; rfl)) ?_
  obtain ⟨s2, r2, e2, st2, er2, ok2⟩ := s.intoMapMut g1
  refine .askConv e2 er2 ?_
  intro m2 h2
  obtain rfl := ok2 m2 h2
  obtain ⟨y3, e3, g3, tx3, s3, -⟩ := WinSeen.put (g1.still st2) (s.still st2) (tx.still st2) hle (new := DocMap.that)
    (by rw [hl]; decide)
  have hle3 : 0 + m2.len ≤ (((DocMap.this ++ [0, 0]).take 0 ++ DocMap.that ++
      (DocMap.this ++ [0, 0]).drop (0 + DocMap.that.length))).length := by rw [hl]; decide
  refine .next e3 ?_
  refine .next (s3.shows g3 tx3 hle3 (Nat.zero_le _) (by omega) (by rfl)) ?_
  refine .next (s3.shows g3 tx3 hle3 (Nat.zero_le _) (Nat.le_refl _) (by rw [hl]; rfl)) ?_
  obtain ⟨s5, r5, e5, st5, er5, ok5⟩ := s3.intoMap g3
  refine .askConv e5 er5 ?_
  intro m5 h5
  obtain rfl := ok5 m5 h5
  have g5 := g3.still st5
  have tx5 := tx3.still st5
  have sn5 := s3.still st5
  refine .next (sn5.shows g5 tx5 hle3 (Nat.zero_le _) (by omega) (by rfl)) ?_
  refine .next (sn5.shows g5 tx5 hle3 (Nat.zero_le _) (Nat.le_refl _) (by simp only [hl]; rfl)) ?_
  obtain ⟨k6, r6, e6, g6, -, er6, ok6⟩ := winOpenedAs tab g5 (o := Options.new)
    ⟨trivial, trivial, t.lim_pos⟩ (.inl ⟨f, nm, tx5.text hf⟩) lim_small rfl
    (size := 16) (n := 16) (new := DocMap.that ++ DocMap.this.drop 4 ++ [0, 0]) rfl
    (by show 0 ≤ 16; decide) rfl rfl (by decide)
  refine .ask e6 er6 ?_
  rintro ⟨m', fd'⟩ h'
  obtain ⟨hl', v', f', -, -, -, tx', hle', s'⟩ := ok6 m' fd' h'
  refine .next (assert_of hl'.symm) ?_
  refine .next (s'.shows g6 tx' hle' (Nat.zero_le _) (by omega) (by rfl)) ?_
  exact .next (s'.shows g6 tx' hle' (Nat.zero_le _) (Nat.le_refl _) (by rw [hl']; rfl)) (.ok _)

example : WinFine (WinMapTests.writeIntoMut docTab ⟨.w64, true⟩ (winDir [] DocMap.this) "data") :=
  C165_write_into_mut docTab (winDir_good _ _) (winDir_has _ _)

example : winEnded (WinMapTests.writeIntoMut docTab ⟨.w64, true⟩ (winDir [] DocMap.this) "data") = true := by
  decide +kernel

/-- C165: `truncate`. -/
theorem C165_truncate (tab : SysTable) (g : WinGood t k) (has : WinFileHas k path DocMap.this) :
    WinFine (WinMapTests.truncate tab t k path) := by
  obtain ⟨k1, r1, e1, g1, -, er1, ok1⟩ := winOpenedAs tab g
    (o := (Options.new.write.setTruncate true).setResize (.exact 16))
    ⟨lim_small, trivial, t.lim_pos⟩ (.inl has) lim_small rfl (size := 16) (n := 16)
    (new := List.replicate 16 0) rfl (by show 0 ≤ 16; decide) rfl rfl (by decide)
  refine .ask e1 er1 ?_
  rintro ⟨m, fd⟩ h
  obtain ⟨hl, v, f, -, -, -, tx, hle, s⟩ := ok1 m fd h
  refine .next (assert_of hl.symm) ?_
  exact .next (s.shows g1 tx hle (Nat.zero_le _) (Nat.le_refl _) (by rw [hl]; rfl)) (.ok _)

example : WinFine (WinMapTests.truncate docTab ⟨.w64, true⟩ (winDir [] DocMap.this) "data") :=
  C165_truncate docTab (winDir_good _ _) (winDir_has _ _)

example : winEnded (WinMapTests.truncate docTab ⟨.w64, true⟩ (winDir [] DocMap.this) "data") = true := by
  decide +kernel

/-- C165: `volatile`.  The granularity and the number 8 are multiples of the alignment of `u64`. -/
theorem C165_volatile (tab : SysTable) (abi : Abi) (g : WinGood t k) {text : List Byte}
    (was : WinFileHas k path text ∨ k.names path = none) (small : text.length < t.lim)
    (gran : abi.align .u64 ∣ k.win.gran) (eight : abi.align .u64 ∣ 8) :
    WinFine (WinMapTests.volatile tab t abi k path) := by
  have was' : ∃ text, WinFileWas k path text ∧ text.length < t.lim := by
    rcases was with h | h
    · exact ⟨text, .inl h, small⟩
    · exact ⟨[], .inr ⟨h, rfl⟩, t.lim_pos⟩
  obtain ⟨text, was, small⟩ := was'
  obtain ⟨k1, r1, e1, g1, kp1, er1, ok1⟩ := winOpenedAs tab g
    (o := ((Options.newMut.write.setTruncate true).create true).setResize (.exact 16))
    ⟨lim_small, trivial, t.lim_pos⟩ was small rfl (size := 16) (n := 16)
    (new := List.replicate 16 0) rfl (by show 0 ≤ 16; decide) rfl rfl (by decide)
  refine .ask e1 er1 ?_
  rintro ⟨m, fd⟩ h
  obtain ⟨hl, v, f, hf, nm, -, tx, hle, s⟩ := ok1 m fd h
  have s : WinSeen k1.win m v 0 true := s
  refine .next (assert_of hl.symm) ?_
  have al0 := s.numAligned g1 (i := 0) (by rw [kp1.gran]; exact gran) (Nat.dvd_zero _) (by omega)
  have al8 := s.numAligned g1 (i := 8) (by rw [kp1.gran]; exact gran) eight (by omega)
  obtain ⟨v1, v2⟩ := s.pair g1 abi (z := []) (b := List.replicate 8 0) (c := List.replicate 8 0) (d := 0)
    tx rfl rfl rfl hl
  rw [decode_zeros] at v1 v2
  refine .next (WinMapTests.holds_ok al0 v1) (.next (WinMapTests.holds_ok al8 v2) ?_)
  obtain ⟨k2, y3, e2, e3, g3, tx3, s3⟩ := s.setPair g1 abi (z := []) (b := List.replicate 8 0)
    (c := List.replicate 8 0) (d := 0) tx rfl rfl rfl hl MapTests.one MapTests.two
  refine .next (by rw [win_volatile_write al0]; exact e2)
    (.next (by rw [win_volatile_write al8]; exact e3) ?_)
  obtain ⟨v1, v2⟩ := WinSeen.pair g3 s3 abi tx3 (d := 0) rfl (encode_length _ _ _) (encode_length _ _ _) hl
  rw [decode_encode _ _ _ (by decide)] at v1 v2
  refine .next (WinMapTests.holds_ok al0 v1) (.next (WinMapTests.holds_ok al8 v2) ?_)
  have done : ([] ++ abi.encode 8 MapTests.one ++ abi.encode 8 MapTests.two).length = 16 := by
    simp only [List.length_append, List.length_nil, encode_length]
  obtain ⟨k4, r4, e4, g4, kp4, er4, ok4⟩ := winOpenedAs tab g3 (o := Options.new)
    ⟨trivial, trivial, t.lim_pos⟩ (.inl ⟨f, nm, tx3.text hf⟩) (by rw [done]; exact lim_small) rfl
    (size := 16) (n := 16) done (by show 0 ≤ 16; decide) rfl (fitted_same _) (by decide)
  refine .ask e4 er4 ?_
  rintro ⟨m', fd'⟩ h'
  obtain ⟨hl', v', f', -, -, -, tx', hle', s'⟩ := ok4 m' fd' h'
  have s' : WinSeen k4.win m' v' 0 false := s'
  obtain ⟨v1, v2⟩ := s'.pair g4 abi tx' (d := 0) rfl (encode_length _ _ _) (encode_length _ _ _) hl'
  rw [decode_encode _ _ _ (by decide)] at v1 v2
  have al0' := s'.numAligned g4 (i := 0) (by rw [kp4.gran]; exact kp1.gran ▸ gran) (Nat.dvd_zero _) (by omega)
  have al8' := s'.numAligned g4 (i := 8) (by rw [kp4.gran]; exact kp1.gran ▸ gran) eight (by omega)
  refine .next (assert_of hl'.symm) ?_
  exact .next (WinMapTests.holds_ok al0' v1) (.next (WinMapTests.holds_ok al8' v2) (.ok _))

example : WinFine (WinMapTests.volatile docTab ⟨.w64, true⟩ ⟨true, fun _ => 8⟩ (winDir [] []) "new") :=
  C165_volatile docTab _ (winDir_good _ _) (text := []) (.inr (winDir_new _ _)) (by decide) (by decide) (by decide)

example : winEnded (WinMapTests.volatile docTab ⟨.w64, true⟩ ⟨true, fun _ => 8⟩ (winDir [] []) "new") = true := by
  decide +kernel

/-- C165: `unaligned`. -/
theorem C165_unaligned (tab : SysTable) (abi : Abi) (g : WinGood t k) {text : List Byte}
    (was : WinFileHas k path text ∨ k.names path = none) (small : text.length < t.lim) :
    WinFine (WinMapTests.unaligned tab t abi k path) := by
  have was' : ∃ text, WinFileWas k path text ∧ text.length < t.lim := by
    rcases was with h | h
    · exact ⟨text, .inl h, small⟩
    · exact ⟨[], .inr ⟨h, rfl⟩, t.lim_pos⟩
  obtain ⟨text, was, small⟩ := was'
  obtain ⟨k1, r1, e1, g1, kp1, er1, ok1⟩ := winOpenedAs tab g
    (o := ((Options.newMut.write.setTruncate true).create true).setResize (.exact 17))
    ⟨lim_small, trivial, t.lim_pos⟩ was small rfl (size := 17) (n := 17)
    (new := List.replicate 17 0) rfl (by show 0 ≤ 17; decide) rfl rfl (by decide)
  refine .ask e1 er1 ?_
  rintro ⟨m, fd⟩ h
  obtain ⟨hl, v, f, hf, nm, -, tx, hle, s⟩ := ok1 m fd h
  have s : WinSeen k1.win m v 0 true := s
  refine .next (assert_of hl.symm) ?_
  obtain ⟨v1, v2⟩ := s.pair g1 abi (z := [0]) (b := List.replicate 8 0) (c := List.replicate 8 0) (d := 1)
    tx rfl rfl rfl hl
  rw [decode_zeros] at v1 v2
  refine .next (WinMapTests.anywhere_ok v1) (.next (WinMapTests.anywhere_ok v2) ?_)
  obtain ⟨k2, y3, e2, e3, g3, tx3, s3⟩ := s.setPair g1 abi (z := [0]) (b := List.replicate 8 0)
    (c := List.replicate 8 0) (d := 1) tx rfl rfl rfl hl MapTests.one MapTests.two
  refine .next e2 (.next e3 ?_)
  obtain ⟨v1, v2⟩ := WinSeen.pair g3 s3 abi tx3 (d := 1) rfl (encode_length _ _ _) (encode_length _ _ _) hl
  rw [decode_encode _ _ _ (by decide)] at v1 v2
  refine .next (WinMapTests.anywhere_ok v1) (.next (WinMapTests.anywhere_ok v2) ?_)
  have done : ([0] ++ abi.encode 8 MapTests.one ++ abi.encode 8 MapTests.two).length = 17 := by
    simp only [List.length_append, List.length_singleton, encode_length]
  obtain ⟨k4, r4, e4, g4, kp4, er4, ok4⟩ := winOpenedAs tab g3 (o := Options.new)
    ⟨trivial, trivial, t.lim_pos⟩ (.inl ⟨f, nm, tx3.text hf⟩) (by rw [done]; exact lim_small) rfl
    (size := 17) (n := 17) done (by show 0 ≤ 17; decide) rfl (fitted_same _) (by decide)
  refine .ask e4 er4 ?_
  rintro ⟨m', fd'⟩ h'
  obtain ⟨hl', v', f', -, -, -, tx', hle', s'⟩ := ok4 m' fd' h'
  have s' : WinSeen k4.win m' v' 0 false := s'
  obtain ⟨v1, v2⟩ := s'.pair g4 abi tx' (d := 1) rfl (encode_length _ _ _) (encode_length _ _ _) hl'
  rw [decode_encode _ _ _ (by decide)] at v1 v2
  refine .next (assert_of hl'.symm) ?_
  exact .next (WinMapTests.anywhere_ok v1) (.next (WinMapTests.anywhere_ok v2) (.ok _))

example : WinFine (WinMapTests.unaligned docTab ⟨.w64, true⟩ ⟨true, fun _ => 8⟩ (winDir [] []) "new") :=
  C165_unaligned docTab _ (winDir_good _ _) (text := []) (.inr (winDir_new _ _)) (by decide)

example : winEnded (WinMapTests.unaligned docTab ⟨.w64, true⟩ ⟨true, fun _ => 8⟩ (winDir [] []) "new") = true := by
  decide +kernel

end Vmap
