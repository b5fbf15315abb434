import Verif.Proofs.WinDocMap
/-
C160: the examples in the documentation of maps, on Windows.
-/
namespace Vmap
open Spec

variable {t : Target} {k : WinFs} {path : String}

/-- C160: two regions of one file. -/
theorem C160_regions (tab : SysTable) (g : WinGood t k) (has : WinFileHas k path DocMap.this) :
    WinFine (WinDocMap.regions tab t k path) := by
  obtain ⟨k1, r1, e1, g1, kp1, er1, ok1⟩ := winOpenedAs tab g (o := Options.new.setLen (.exact 4))
    ⟨trivial, lim_small, t.lim_pos⟩ (.inl has) lim_small rfl (size := 14) (n := 4)
    (new := DocMap.this) rfl (by show 0 + 4 ≤ 14; decide) rfl rfl (by decide)
  refine .ask e1 er1 ?_
  rintro ⟨m, fd⟩ h
  obtain ⟨hl, v, f, hf, nm, hfd, tx, hle, s⟩ := ok1 m fd h
  refine .next (s.shows g1 tx hle (Nat.zero_le _) (Nat.le_refl _) (by rw [hl]; rfl)) ?_
  obtain ⟨s2, r2, e2, g2, -, er2, no2, tx2, ok2⟩ := winMapped tab g1
    (o := (Options.new.setOffset 10).setLen (.exact 4)) ⟨trivial, lim_small, lim_small⟩ hfd (tx.text hf) lim_small
  have hin : InRange (newLen false .endOf DocMap.this.length) 10 (.exact 4) := by
    show 10 + 4 ≤ 14; decide
  have e3 : k1.map tab t ((Options.new.setOffset 10).setLen (.exact 4)) fd = .ok ({ k1 with win := s2 }, match r2 with
      | .ok (some m) => .ok m
      | .ok none => .error (Error.input .mapFile .invalidRange)
      | .error e => .error e) := by
    simp only [WinFs.map, e2, bind, Except.bind]
    cases r2 with
    | error e => rfl
    | ok m => cases m <;> rfl
  refine .ask e3 ?_ ?_
  · intro e h
    cases r2 with
    | error e' => simp only at h; injection h with h; subst h; exact er2 _ rfl
    | ok m => cases m with
      | none => exact absurd hin (no2 rfl)
      | some m => cases h
  · intro m h
    cases r2 with
    | error e' => cases h
    | ok m' => cases m' with
      | none => cases h
      | some m' =>
        simp only at h; injection h with h; subst h
        obtain ⟨-, hl, hle, hs⟩ := ok2 m' rfl
        have hl : m'.len = 4 := hl
        obtain ⟨v', hv', s', -⟩ := hs (by omega)
        have tx' := (tx2 _ rfl).bears hv'
        refine .next (s'.shows g2 tx' hle (Nat.zero_le _) (Nat.le_refl _) (by rw [hl]; rfl)) ?_
        exact .ok _

example : WinFine (WinDocMap.regions docTab ⟨.w64, true⟩ (winDir [] DocMap.this) "data") :=
  C160_regions docTab (winDir_good _ _) (winDir_has _ _)

example : winEnded (WinDocMap.regions docTab ⟨.w64, true⟩ (winDir [] DocMap.this) "data") = true := by
  decide +kernel

/-- C160: changing a file through a map. -/
theorem C160_changes (tab : SysTable) (g : WinGood t k) (has : WinFileHas k path DocMap.this) :
    WinFine (WinDocMap.changes tab t k path) := by
  obtain ⟨k1, r1, e1, g1, kp1, er1, ok1⟩ := winOpenedAs tab g (o := Options.new.write.setLen (.exact 14))
    ⟨trivial, lim_small, t.lim_pos⟩ (.inl has) lim_small rfl (size := 14) (n := 14)
    (new := DocMap.this) rfl (by show 0 + 14 ≤ 14; decide) rfl rfl (by decide)
  refine .ask e1 er1 ?_
  rintro ⟨m, fd⟩ h
  obtain ⟨hl, v, f, hf, nm, hfd, tx, hle, s⟩ := ok1 m fd h
  refine .next (s.shows g1 tx hle (Nat.zero_le _) (Nat.le_refl _) (by rw [hl]; rfl)) ?_
  obtain ⟨s2, r2, e2, st2, er2, ok2⟩ := s.intoMapMut g1
  refine .askConv e2 er2 ?_
  intro m2 h2
  obtain rfl := ok2 m2 h2
  have g2 := g1.still st2
  obtain ⟨y3, e3, g3, tx3, s3, -⟩ := (s.still st2).put g2 (tx.still st2) hle (new := DocMap.that) (by rw [hl]; decide)
  refine .next e3 ?_
  obtain ⟨s4, r4, e4, st4, er4⟩ := s3.flush g3 fd .sync
  refine .ask e4 er4 ?_
  intro _ _
  obtain ⟨s5, r5, e5, st5, er5, ok5⟩ := (s3.still st4).intoMap (g3.still st4)
  refine .askConv e5 er5 ?_
  intro m5 h5
  obtain rfl := ok5 m5 h5
  refine .next (((s3.still st4).still st5).shows ((g3.still st4).still st5) ((tx3.still st4).still st5) (by rw [hl]; decide)
    (Nat.zero_le _) (Nat.le_refl _) (by simp only [hl]; rfl)) ?_
  exact .ok _

example : WinFine (WinDocMap.changes docTab ⟨.w64, true⟩ (winDir [] DocMap.this) "data") :=
  C160_changes docTab (winDir_good _ _) (winDir_has _ _)

example : winEnded (WinDocMap.changes docTab ⟨.w64, true⟩ (winDir [] DocMap.this) "data") = true := by
  decide +kernel

/-- C160: `Map`. -/
theorem C160_map_type (tab : SysTable) (g : WinGood t k) (has : WinFileHas k path DocMap.about) :
    WinFine (WinDocMap.mapType tab t k path) := by
  obtain ⟨k1, r1, e1, g1, kp1, er1, ok1⟩ := winOpenedAs tab g (o := (Options.new.setOffset 29).setLen (.exact 30))
    ⟨trivial, lim_small, lim_small⟩ (.inl has) lim_small rfl (size := 67) (n := 30)
    (new := DocMap.about) rfl (by show 29 + 30 ≤ 67; decide) rfl rfl (by decide)
  refine .ask e1 er1 ?_
  rintro ⟨m, fd⟩ h
  obtain ⟨hl, v, f, hf, nm, hfd, tx, hle, s⟩ := ok1 m fd h
  refine .ask (s.advise g1 .sequential) (fun e h => by cases h) ?_
  intro _ _
  refine .next (s.shows g1 tx hle (Nat.zero_le _) (Nat.le_refl _) (by rw [hl]; rfl)) ?_
  refine .next (s.shows g1 tx hle (by decide) (by rw [hl]; decide) rfl) ?_
  exact .ok _

example : WinFine (WinDocMap.mapType docTab ⟨.w64, true⟩ (winDir [] DocMap.about) "data") :=
  C160_map_type docTab (winDir_good _ _) (winDir_has _ _)

example : winEnded (WinDocMap.mapType docTab ⟨.w64, true⟩ (winDir [] DocMap.about) "data") = true := by
  decide +kernel

/-- C160: `Map::with_options`. -/
theorem C160_with_options (tab : SysTable) (g : WinGood t k) (has : WinFileHas k path DocMap.about) :
    WinFine (WinDocMap.withOptions tab t k path) := by
  obtain ⟨k1, r1, e1, g1, kp1, er1, ok1⟩ := winOpenedAs tab g (o := (Options.new.setOffset 29).setLen (.exact 30))
    ⟨trivial, lim_small, lim_small⟩ (.inl has) lim_small rfl (size := 67) (n := 30)
    (new := DocMap.about) rfl (by show 29 + 30 ≤ 67; decide) rfl rfl (by decide)
  refine .ask e1 er1 ?_
  rintro ⟨m, fd⟩ h
  obtain ⟨hl, v, f, hf, nm, hfd, tx, hle, s⟩ := ok1 m fd h
  refine .next (s.shows g1 tx hle (Nat.zero_le _) (Nat.le_refl _) (by rw [hl]; rfl)) ?_
  exact .ok _

example : WinFine (WinDocMap.withOptions docTab ⟨.w64, true⟩ (winDir [] DocMap.about) "data") :=
  C160_with_options docTab (winDir_good _ _) (winDir_has _ _)

example : winEnded (WinDocMap.withOptions docTab ⟨.w64, true⟩ (winDir [] DocMap.about) "data") = true := by
  decide +kernel

/-- C160: `Map::into_map_mut`. -/
theorem C160_into_map_mut (tab : SysTable) (g : WinGood t k) (has : WinFileHas k path DocMap.this) :
    WinFine (WinDocMap.intoMapMut tab t k path) := by
  obtain ⟨k1, r1, e1, g1, kp1, er1, ok1⟩ := winOpenedAs tab g (o := Options.new.write.setLen (.exact 14))
    ⟨trivial, lim_small, t.lim_pos⟩ (.inl has) lim_small rfl (size := 14) (n := 14)
    (new := DocMap.this) rfl (by show 0 + 14 ≤ 14; decide) rfl rfl (by decide)
  refine .ask e1 er1 ?_
  rintro ⟨m, fd⟩ h
  obtain ⟨hl, v, f, hf, nm, hfd, tx, hle, s⟩ := ok1 m fd h
  refine .next (s.shows g1 tx hle (Nat.zero_le _) (Nat.le_refl _) (by rw [hl]; rfl)) ?_
  obtain ⟨s2, r2, e2, st2, er2, ok2⟩ := s.intoMapMut g1
  refine .askConv e2 er2 ?_
  intro m2 h2
  obtain rfl := ok2 m2 h2
  have g2 := g1.still st2
  obtain ⟨y3, e3, g3, tx3, s3, -⟩ := (s.still st2).put g2 (tx.still st2) hle (new := DocMap.that) (by rw [hl]; decide)
  refine .next e3 ?_
  refine .next (s3.shows g3 tx3 (by rw [hl]; decide) (Nat.zero_le _) (Nat.le_refl _) (by rw [hl]; rfl)) ?_
  exact .ok _

example : WinFine (WinDocMap.intoMapMut docTab ⟨.w64, true⟩ (winDir [] DocMap.this) "data") :=
  C160_into_map_mut docTab (winDir_good _ _) (winDir_has _ _)

example : winEnded (WinDocMap.intoMapMut docTab ⟨.w64, true⟩ (winDir [] DocMap.this) "data") = true := by
  decide +kernel

/-- C160: `MapMut::with_options`. -/
theorem C160_with_options_mut (tab : SysTable) (g : WinGood t k) (has : WinFileHas k path DocMap.about) :
    WinFine (WinDocMap.withOptionsMut tab t k path) := by
  obtain ⟨k1, r1, e1, g1, kp1, er1, ok1⟩ := winOpenedAs tab g (o := (Options.newMut.setOffset 29).setLen (.exact 30))
    ⟨trivial, lim_small, lim_small⟩ (.inl has) lim_small rfl (size := 67) (n := 30)
    (new := DocMap.about) rfl (by show 29 + 30 ≤ 67; decide) rfl rfl (by decide)
  refine .ask e1 er1 ?_
  rintro ⟨m, fd⟩ h
  obtain ⟨hl, v, f, hf, nm, hfd, tx, hle, s⟩ := ok1 m fd h
  refine .next (s.shows g1 tx hle (Nat.zero_le _) (Nat.le_refl _) (by rw [hl]; rfl)) ?_
  obtain ⟨y3, e3, g3, tx3, s3, -⟩ := s.put g1 tx hle (new := DocMap.nice) (by rw [hl]; decide)
  refine .next e3 ?_
  obtain ⟨s4, r4, e4, st4⟩ := s3.flushRange g3 fd (a := 0) (l := 4) (by rw [hl]; decide) .sync
  refine .next e4 ?_
  refine .next ((s3.still st4).shows (g3.still st4) (tx3.still st4) (by rw [hl]; decide) (Nat.zero_le _) (Nat.le_refl _)
    (by rw [hl]; rfl)) ?_
  exact .ok _

example : WinFine (WinDocMap.withOptionsMut docTab ⟨.w64, true⟩ (winDir [] DocMap.about) "data") :=
  C160_with_options_mut docTab (winDir_good _ _) (winDir_has _ _)

example : winEnded (WinDocMap.withOptionsMut docTab ⟨.w64, true⟩ (winDir [] DocMap.about) "data") = true := by
  decide +kernel

/-- C160: `MapMut::into_map`. -/
theorem C160_into_map (tab : SysTable) (g : WinGood t k) (has : WinFileHas k path DocMap.this) :
    WinFine (WinDocMap.intoMap tab t k path) := by
  obtain ⟨k1, r1, e1, g1, kp1, er1, ok1⟩ := winOpenedAs tab g (o := Options.newMut.setLen (.exact 14))
    ⟨trivial, lim_small, t.lim_pos⟩ (.inl has) lim_small rfl (size := 14) (n := 14)
    (new := DocMap.this) rfl (by show 0 + 14 ≤ 14; decide) rfl rfl (by decide)
  refine .ask e1 er1 ?_
  rintro ⟨m, fd⟩ h
  obtain ⟨hl, v, f, hf, nm, hfd, tx, hle, s⟩ := ok1 m fd h
  refine .next (s.shows g1 tx hle (Nat.zero_le _) (Nat.le_refl _) (by rw [hl]; rfl)) ?_
  obtain ⟨y3, e3, g3, tx3, s3, -⟩ := s.put g1 tx hle (new := DocMap.that) (by rw [hl]; decide)
  refine .next e3 ?_
  obtain ⟨s5, r5, e5, st5, er5, ok5⟩ := s3.intoMap g3
  refine .askConv e5 er5 ?_
  intro m5 h5
  obtain rfl := ok5 m5 h5
  refine .next ((s3.still st5).shows (g3.still st5) (tx3.still st5) (by rw [hl]; decide) (Nat.zero_le _) (Nat.le_refl _)
    (by simp only [hl]; rfl)) ?_
  exact .ok _

example : WinFine (WinDocMap.intoMap docTab ⟨.w64, true⟩ (winDir [] DocMap.this) "data") :=
  C160_into_map docTab (winDir_good _ _) (winDir_has _ _)

example : winEnded (WinDocMap.intoMap docTab ⟨.w64, true⟩ (winDir [] DocMap.this) "data") = true := by
  decide +kernel

/-- C160: `MapMut::new`. -/
theorem C160_new (g : WinGood t k) (fits : 200 + k.win.gran < t.lim) :
    WinFine (WinDocMap.newMap t k) := by
  obtain ⟨s1, r1, e1, g1, -, er1, ok1⟩ := winAlloced g (o := Options.newMut.setLen (.min 200)) rfl rfl
    (by show 0 + 200 + k.win.gran < t.lim; omega)
  refine .ask e1 er1 ?_
  intro m h
  obtain ⟨⟨hl, -⟩, hs⟩ := ok1 m h
  obtain ⟨v, text, tx, hle, s⟩ := hs (by omega)
  obtain ⟨y3, e3, g3, tx3, s3, -⟩ := s.put g1 tx hle (new := DocMap.test) (by show 4 ≤ m.len; omega)
  refine .next e3 ?_
  have hlen : DocMap.test.length = 4 := rfl
  refine .next (s3.shows g3 tx3 ?_ (by decide) (by omega) ?_) ?_
  · simp only [List.length_append, List.length_take, List.length_drop, hlen]; omega
  · simp only [List.take_zero, List.nil_append, Nat.zero_add, List.drop_zero]
    rw [List.take_append_of_le_length (by decide)]; rfl
  · exact .ok _

example : WinFine (WinDocMap.newMap ⟨.w64, true⟩ (winDir [] [])) :=
  C160_new (winDir_good _ _) (by decide)

example : winEnded (WinDocMap.newMap ⟨.w64, true⟩ (winDir [] [])) = true := by
  decide +kernel

/-- C160: `Options::alloc`. -/
theorem C160_alloc (g : WinGood t k) (fits : 500 + k.win.gran < t.lim) :
    WinFine (WinDocMap.alloc t k) := by
  obtain ⟨s1, r1, e1, g1, -, er1, ok1⟩ := winAlloced g (o := Options.newMut.setLen (.min 500)) rfl rfl
    (by show 0 + 500 + k.win.gran < t.lim; omega)
  refine .ask e1 er1 ?_
  intro m h
  obtain ⟨⟨hl, -⟩, -⟩ := ok1 m h
  refine .next (a := ()) ?_ (.ok _)
  simp only [Doc.assert, ge_iff_le, hl, decide_true, if_true]

example : WinFine (WinDocMap.alloc ⟨.w64, true⟩ (winDir [] [])) :=
  C160_alloc (winDir_good _ _) (by decide)

example : winEnded (WinDocMap.alloc ⟨.w64, true⟩ (winDir [] [])) = true := by
  decide +kernel

/-- C160: `Options::create`. -/
theorem C160_create (tab : SysTable) (g : WinGood t k) (new : k.names path = none) :
    WinFine (WinDocMap.create tab t k path) := by
  obtain ⟨k1, r1, e1, g1, kp1, er1, ok1⟩ := winOpenedAs tab g (o := (Options.newMut.create true).setResize (.exact 100))
    ⟨lim_small, trivial, t.lim_pos⟩ (.inr ⟨new, rfl⟩) lim_small rfl (size := 100) (n := 100)
    (new := List.replicate 100 0) rfl (by show 0 ≤ 100; decide) rfl rfl (by decide)
  refine .ask e1 er1 ?_
  rintro ⟨m, fd⟩ h
  obtain ⟨hl, v, f, hf, nm, hfd, tx, hle, s⟩ := ok1 m fd h
  refine .next (a := ()) (by rw [hl]; rfl) ?_
  refine .next (s.shows g1 tx hle (by decide) (by rw [hl]; decide) (by rfl)) ?_
  obtain ⟨y3, e3, g3, tx3, -, -⟩ := s.put g1 tx hle (new := DocMap.test) (by rw [hl]; decide)
  refine .next e3 ?_
  obtain ⟨k4, r4, e4, g4, kp4, er4, ok4⟩ := winOpenedAs tab g3 (o := Options.new)
    ⟨trivial, trivial, t.lim_pos⟩ (.inl ⟨f, nm, tx3.text hf⟩) lim_small rfl (size := 100) (n := 100)
    (new := DocMap.test ++ List.replicate 96 0) rfl (by show 0 ≤ 100; decide) rfl rfl (by decide)
  refine .ask e4 er4 ?_
  rintro ⟨m', fd'⟩ h'
  obtain ⟨hl', v', f', hf', nm', hfd', tx', hle', s'⟩ := ok4 m' fd' h'
  refine .next (a := ()) (by rw [hl']; rfl) ?_
  refine .next (s'.shows g4 tx' hle' (by decide) (by rw [hl']; decide) (by rfl)) ?_
  exact .ok _

example : WinFine (WinDocMap.create docTab ⟨.w64, true⟩ (winDir [] []) "new") :=
  C160_create docTab (winDir_good _ _) (winDir_new _ _)

example : winEnded (WinDocMap.create docTab ⟨.w64, true⟩ (winDir [] []) "new") = true := by
  decide +kernel

/-- C160: `Options::create_new`. -/
theorem C160_create_new (tab : SysTable) (g : WinGood t k) (new : k.names path = none) :
    WinFine (WinDocMap.createNew tab t k path) := by
  obtain ⟨k1, r1, e1, g1, kp1, er1, ok1⟩ := winOpenedAs tab g (o := (Options.newMut.createNew true).setResize (.exact 10))
    ⟨lim_small, trivial, t.lim_pos⟩ (.inr ⟨new, rfl⟩) lim_small rfl (size := 10) (n := 10)
    (new := List.replicate 10 0) rfl (by show 0 ≤ 10; decide) rfl rfl (by decide)
  refine .ask e1 er1 ?_
  rintro ⟨m, fd⟩ h
  obtain ⟨hl, v, f, hf, nm, hfd, tx, hle, s⟩ := ok1 m fd h
  refine .next (a := ()) (by rw [hl]; rfl) ?_
  obtain ⟨k2, e, h2⟩ := winOpen_there tab g1 (o := Options.newMut.createNew true) nm rfl
  refine .next h2 ?_
  refine .next (a := ()) rfl ?_
  exact .ok _

example : WinFine (WinDocMap.createNew docTab ⟨.w64, true⟩ (winDir [] []) "new") :=
  C160_create_new docTab (winDir_good _ _) (winDir_new _ _)

example : winEnded (WinDocMap.createNew docTab ⟨.w64, true⟩ (winDir [] []) "new") = true := by
  decide +kernel

/-- C160: `Options::truncate`. -/
theorem C160_truncate (tab : SysTable) (g : WinGood t k) {text : List Byte}
    (was : WinFileHas k path text ∨ k.names path = none) (small : text.length < t.lim) :
    WinFine (WinDocMap.truncate tab t k path) := by
  have was' : ∃ text, WinFileWas k path text ∧ text.length < t.lim := by
    rcases was with h | h
    · exact ⟨text, .inl h, small⟩
    · exact ⟨[], .inr ⟨h, rfl⟩, t.lim_pos⟩
  obtain ⟨text, was, small⟩ := was'
  obtain ⟨k1, r1, e1, g1, kp1, er1, ok1⟩ := winOpenedAs tab g (o := ((Options.newMut.create true).setTruncate true).setResize (.exact 4))
    ⟨lim_small, trivial, t.lim_pos⟩ was small rfl (size := 4) (n := 4)
    (new := List.replicate 4 0) rfl (by show 0 ≤ 4; decide) rfl rfl (by decide)
  refine .ask e1 er1 ?_
  rintro ⟨m, fd⟩ h
  obtain ⟨hl, v, f, hf, nm, hfd, tx, hle, s⟩ := ok1 m fd h
  refine .next (s.shows g1 tx hle (Nat.zero_le _) (Nat.le_refl _) (by rw [hl]; rfl)) ?_
  obtain ⟨y3, e3, g3, tx3, s3, -⟩ := s.put g1 tx hle (new := DocMap.test) (by rw [hl]; decide)
  refine .next e3 ?_
  refine .next (s3.shows g3 tx3 (by rw [hl]; decide) (Nat.zero_le _) (Nat.le_refl _) (by rw [hl]; rfl)) ?_
  obtain ⟨s5, e5, g5, by5, fl5, -⟩ := WinSeen.drop (g3.close fd) s3
  refine .next e5 ?_
  have tx5 : WinText s5 f DocMap.test := by
    have := tx3.text hf
    exact ⟨by rw [fl5]; exact this.size, by rw [by5]; exact this.data⟩
  obtain ⟨k6, r6, e6, g6, kp6, er6, ok6⟩ := winOpenedAs tab g5 (o := (Options.newMut.setTruncate true).setResize (.exact 4))
    ⟨lim_small, trivial, t.lim_pos⟩ (.inl ⟨f, nm, tx5⟩) lim_small rfl (size := 4) (n := 4)
    (new := List.replicate 4 0) rfl (by show 0 ≤ 4; decide) rfl rfl (by decide)
  refine .ask e6 er6 ?_
  rintro ⟨m', fd'⟩ h'
  obtain ⟨hl', v', f', hf', nm', hfd', tx', hle', s'⟩ := ok6 m' fd' h'
  refine .next (s'.shows g6 tx' hle' (Nat.zero_le _) (Nat.le_refl _) (by rw [hl']; rfl)) ?_
  exact .ok _

example : WinFine (WinDocMap.truncate docTab ⟨.w64, true⟩ (winDir [] DocMap.this) "data") :=
  C160_truncate docTab (winDir_good _ _) (.inl (winDir_has _ DocMap.this)) (by decide)

example : winEnded (WinDocMap.truncate docTab ⟨.w64, true⟩ (winDir [] DocMap.this) "data") = true := by
  decide +kernel

/-- C160: `Options::offset`. -/
theorem C160_offset (tab : SysTable) (g : WinGood t k) (has : WinFileHas k path DocMap.this) :
    WinFine (WinDocMap.offset tab t k path) := by
  obtain ⟨k1, r1, e1, g1, kp1, er1, ok1⟩ := winOpenedAs tab g (o := Options.new.setOffset 10)
    ⟨trivial, trivial, lim_small⟩ (.inl has) lim_small rfl (size := 14) (n := 4)
    (new := DocMap.this) rfl (by show 10 ≤ 14; decide) rfl rfl (by decide)
  refine .ask e1 er1 ?_
  rintro ⟨m, fd⟩ h
  obtain ⟨hl, v, f, hf, nm, hfd, tx, hle, s⟩ := ok1 m fd h
  refine .next (s.shows g1 tx hle (Nat.zero_le _) (Nat.le_refl _) (by rw [hl]; rfl)) ?_
  exact .ok _

example : WinFine (WinDocMap.offset docTab ⟨.w64, true⟩ (winDir [] DocMap.this) "data") :=
  C160_offset docTab (winDir_good _ _) (winDir_has _ _)

example : winEnded (WinDocMap.offset docTab ⟨.w64, true⟩ (winDir [] DocMap.this) "data") = true := by
  decide +kernel

/-- C160: `Options::len` with an exact length. -/
theorem C160_len_exact (tab : SysTable) (g : WinGood t k) (has : WinFileHas k path DocMap.this) :
    WinFine (WinDocMap.lenExact tab t k path) := by
  obtain ⟨k1, r1, e1, g1, kp1, er1, ok1⟩ := winOpenedAs tab g (o := Options.new.setLen (.exact 4))
    ⟨trivial, lim_small, t.lim_pos⟩ (.inl has) lim_small rfl (size := 14) (n := 4)
    (new := DocMap.this) rfl (by show 0 + 4 ≤ 14; decide) rfl rfl (by decide)
  refine .ask e1 er1 ?_
  rintro ⟨m, fd⟩ h
  obtain ⟨hl, v, f, hf, nm, hfd, tx, hle, s⟩ := ok1 m fd h
  refine .next (s.shows g1 tx hle (Nat.zero_le _) (Nat.le_refl _) (by rw [hl]; rfl)) ?_
  obtain ⟨s2, r2, e2, g2, kp2, er2, ok2⟩ := winAlloced g1 (o := Options.newMut.setLen (.exact 4)) rfl rfl
    (by show 0 + 4 < t.lim; exact lim_small)
  refine .ask e2 er2 ?_
  intro m' h'
  obtain ⟨hl', -⟩ := ok2 m' h'
  have hl' : m'.len = 4 := hl'
  refine .next (a := ()) (by rw [hl']; rfl) (.ok _)

example : WinFine (WinDocMap.lenExact docTab ⟨.w64, true⟩ (winDir [] DocMap.this) "data") :=
  C160_len_exact docTab (winDir_good _ _) (winDir_has _ _)

example : winEnded (WinDocMap.lenExact docTab ⟨.w64, true⟩ (winDir [] DocMap.this) "data") = true := by
  decide +kernel

/-- C160: `Options::len` with a minimum, where the allocation granularity is at least 2000 bytes (it is 65536). -/
theorem C160_len_min (tab : SysTable) (g : WinGood t k) (has : WinFileHas k path DocMap.this)
    (gran : 2000 ≤ k.win.gran) (fits : 2000 + k.win.gran < t.lim) :
    WinFine (WinDocMap.lenMin tab t k path) := by
  obtain ⟨k1, r1, e1, g1, kp1, er1, ok1⟩ := winOpenedAs tab g (o := (Options.new.setOffset 5).setLen (.min 4))
    ⟨trivial, lim_small, lim_small⟩ (.inl has) lim_small rfl (size := 14) (n := 9)
    (new := DocMap.this) rfl (by show 5 + 4 ≤ 14; decide) rfl rfl (by decide)
  refine .ask e1 er1 ?_
  rintro ⟨m, fd⟩ h
  obtain ⟨hl, v, f, hf, nm, hfd, tx, hle, s⟩ := ok1 m fd h
  refine .next (a := ()) (by rw [hl]; rfl) ?_
  refine .next (s.shows g1 tx hle (Nat.zero_le _) (Nat.le_refl _) (by rw [hl]; rfl)) ?_
  obtain ⟨k2, r2, e2, g2, kp2, er2, -, ok2⟩ := winOpenedIf tab g1 (o := Options.new.setLen (.min 100))
    ⟨trivial, lim_small, t.lim_pos⟩ (.inl ⟨f, nm, tx.text hf⟩) lim_small rfl
  refine .ask e2 er2 ?_
  rintro ⟨m2, fd2⟩ h2
  have hnone : m2 = none := by
    cases m2 with
    | none => rfl
    | some m2 =>
      obtain ⟨f', -, -, -, hm⟩ := ok2 _ fd2 h2
      exact absurd (hm m2 rfl).1 (by show ¬ 0 + 100 ≤ 14; decide)
  subst hnone
  refine .next (a := ()) rfl ?_
  have hg : k2.win.gran = k.win.gran := kp2.gran.trans kp1.gran
  obtain ⟨s3, r3, e3, g3, kp3, er3, ok3⟩ := winAlloced g2 (o := Options.newMut.setLen (.min 2000)) rfl rfl
    (by show 0 + 2000 + k2.win.gran < t.lim; omega)
  refine .ask e3 er3 ?_
  intro m' h'
  obtain ⟨⟨a1, a2, a3⟩, -⟩ := ok3 m' h'
  have hlen : m'.len = k.win.gran := by
    rw [hg, Nat.zero_add] at a2
    rw [hg] at a3
    obtain ⟨c, hc⟩ := a2
    rcases c with _ | _ | c
    · omega
    · omega
    · rw [Nat.mul_add, Nat.mul_add] at hc; omega
  obtain ⟨a, b, ha, hb, hab, hbits⟩ := g.wf.win.sizes
  have hsz : s3.sizeAlloc.size t 1 = .ok k.win.gran := by
    have := C03_size t b 1 (by omega) (by rw [Nat.one_mul, ← hb]; omega)
    rw [Nat.one_mul, ← hb] at this
    simp only [Win.sizeAlloc, Win.systemInfo, kp3.gran, hg]
    exact this
  refine .next hsz ?_
  refine .next (a := ()) (by simp only [Doc.assert, hlen, decide_true, if_true]) (.ok _)

example : WinFine (WinDocMap.lenMin docTab ⟨.w64, true⟩ (winDir [] DocMap.this) "data") :=
  C160_len_min docTab (winDir_good _ _) (winDir_has _ _) (by decide) (by decide)

example : winEnded (WinDocMap.lenMin docTab ⟨.w64, true⟩ (winDir [] DocMap.this) "data") = true := by
  decide +kernel

/-- C160: `Options::len` with a maximum. -/
theorem C160_len_max (tab : SysTable) (g : WinGood t k) (has : WinFileHas k path DocMap.this) :
    WinFine (WinDocMap.lenMax tab t k path) := by
  obtain ⟨k1, r1, e1, g1, kp1, er1, ok1⟩ := winOpenedAs tab g (o := (Options.new.setOffset 5).setLen (.max 100))
    ⟨trivial, lim_small, lim_small⟩ (.inl has) lim_small rfl (size := 14) (n := 9)
    (new := DocMap.this) rfl (by show 5 ≤ 14; decide) rfl rfl (by decide)
  refine .ask e1 er1 ?_
  rintro ⟨m, fd⟩ h
  obtain ⟨hl, v, f, hf, nm, hfd, tx, hle, s⟩ := ok1 m fd h
  refine .next (a := ()) (by rw [hl]; rfl) ?_
  refine .next (s.shows g1 tx hle (Nat.zero_le _) (Nat.le_refl _) (by rw [hl]; rfl)) ?_
  obtain ⟨s2, r2, e2, g2, kp2, er2, ok2⟩ := winAlloced g1 (o := Options.newMut.setLen (.max 2000)) rfl rfl
    (by show 0 + 2000 < t.lim; exact lim_small)
  refine .ask e2 er2 ?_
  intro m' h'
  obtain ⟨hl', -⟩ := ok2 m' h'
  have hl' : m'.len = 2000 := hl'
  refine .next (a := ()) (by rw [hl']; rfl) (.ok _)

example : WinFine (WinDocMap.lenMax docTab ⟨.w64, true⟩ (winDir [] DocMap.this) "data") :=
  C160_len_max docTab (winDir_good _ _) (winDir_has _ _)

example : winEnded (WinDocMap.lenMax docTab ⟨.w64, true⟩ (winDir [] DocMap.this) "data") = true := by
  decide +kernel

/-- C160: `Options::resize` with an exact length. -/
theorem C160_resize_exact (tab : SysTable) (g : WinGood t k) (has : WinFileHas k path DocMap.this) :
    WinFine (WinDocMap.resizeExact tab t k path) := by
  obtain ⟨k1, r1, e1, g1, kp1, er1, ok1⟩ := winOpenedAs tab g (o := Options.new.write.setResize (.exact 7))
    ⟨lim_small, trivial, t.lim_pos⟩ (.inl has) lim_small rfl (size := 7) (n := 7)
    (new := DocMap.this.take 7) rfl (by show 0 ≤ 7; decide) rfl rfl (by decide)
  refine .ask e1 er1 ?_
  rintro ⟨m, fd⟩ h
  obtain ⟨hl, v, f, hf, nm, hfd, tx, hle, s⟩ := ok1 m fd h
  refine .next (a := ()) (by rw [hl]; rfl) ?_
  refine .next (s.shows g1 tx hle (Nat.zero_le _) (Nat.le_refl _) (by rw [hl]; rfl)) ?_
  exact .ok _

example : WinFine (WinDocMap.resizeExact docTab ⟨.w64, true⟩ (winDir [] DocMap.this) "data") :=
  C160_resize_exact docTab (winDir_good _ _) (winDir_has _ _)

example : winEnded (WinDocMap.resizeExact docTab ⟨.w64, true⟩ (winDir [] DocMap.this) "data") = true := by
  decide +kernel

/-- C160: `Options::resize` with a minimum: a longer file is kept, a shorter one (here "test", as in the
second half of the documentation, or any other) gets zeros. -/
theorem C160_resize_min (tab : SysTable) (g : WinGood t k) {text : List Byte} (has : WinFileHas k path text)
    (small : text.length < t.lim) :
    WinFine (WinDocMap.resizeMin tab t k path (text ++ List.replicate (7 - text.length) 0)) := by
  have hsz : newLen false (.min 7) text.length = (text ++ List.replicate (7 - text.length) 0).length := by
    simp only [List.length_append, List.length_replicate, newLen, Bool.false_eq_true, if_false]
    show max 7 text.length = _
    omega
  have hfit : fitted false (.min 7) text = text ++ List.replicate (7 - text.length) 0 := by
    unfold fitted
    rw [hsz]
    simp only [Bool.false_eq_true, if_false, List.length_append, List.length_replicate]
    rw [List.take_of_length_le (by omega), Nat.add_sub_cancel_left]
  obtain ⟨k1, r1, e1, g1, -, er1, ok1⟩ := winOpenedAs tab g (o := Options.new.write.setResize (.min 7))
    ⟨lim_small, trivial, t.lim_pos⟩ (.inl has) small rfl hsz
    (by show 0 ≤ _; omega) rfl hfit
    (by show 0 < _ - 0; simp only [List.length_append, List.length_replicate]; omega)
  refine .ask e1 er1 ?_
  rintro ⟨m, fd⟩ h
  obtain ⟨hl, v, f, hf, -, -, tx, hle, s⟩ := ok1 m fd h
  have hl : m.len = (text ++ List.replicate (7 - text.length) 0).length := hl
  refine .next (a := ()) (by simp only [hl, Doc.assert, decide_true, if_true]) ?_
  refine .next (s.shows g1 tx hle (Nat.zero_le _) (Nat.le_refl _) ?_) ?_
  · rw [hl]
    show ((text ++ List.replicate (7 - text.length) 0).drop 0).take _ = _
    rw [List.drop_zero, Nat.sub_zero, List.take_length]
  · exact .ok _

example : WinFine (WinDocMap.resizeMin docTab ⟨.w64, true⟩ (winDir [] DocMap.test) "data" (DocMap.test ++ [0, 0, 0])) :=
  C160_resize_min docTab (winDir_good _ _) (winDir_has _ DocMap.test) (by decide)

example : winEnded (WinDocMap.resizeMin docTab ⟨.w64, true⟩ (winDir [] DocMap.test) "data" (DocMap.test ++ [0, 0, 0])) = true := by
  decide +kernel

/-- C160: `Options::resize` with a maximum: a longer file is cut, a shorter one kept (other than
an empty one, of which Windows makes no map). -/
theorem C160_resize_max (tab : SysTable) (g : WinGood t k) {text : List Byte} (has : WinFileHas k path text)
    (small : text.length < t.lim) (pos : 0 < text.length) : WinFine (WinDocMap.resizeMax tab t k path (text.take 7)) := by
  have hsz : newLen false (.max 7) text.length = (text.take 7).length := by
    simp only [List.length_take, newLen, Bool.false_eq_true, if_false]
  have hfit : fitted false (.max 7) text = text.take 7 := by
    unfold fitted
    rw [hsz]
    simp only [Bool.false_eq_true, if_false, List.length_take]
    rw [show min 7 text.length - text.length = 0 by omega, List.replicate_zero, List.append_nil]
    by_cases h : 7 ≤ text.length
    · rw [Nat.min_eq_left h]
    · rw [Nat.min_eq_right (by omega), List.take_length, List.take_of_length_le (by omega)]
  obtain ⟨k1, r1, e1, g1, -, er1, ok1⟩ := winOpenedAs tab g (o := Options.new.write.setResize (.max 7))
    ⟨lim_small, trivial, t.lim_pos⟩ (.inl has) small rfl hsz
    (by show 0 ≤ _; omega) rfl hfit
    (by show 0 < _ - 0; rw [List.length_take]; omega)
  refine .ask e1 er1 ?_
  rintro ⟨m, fd⟩ h
  obtain ⟨hl, v, f, hf, -, -, tx, hle, s⟩ := ok1 m fd h
  have hl : m.len = (text.take 7).length := hl
  refine .next (a := ()) (by simp only [hl, Doc.assert, decide_true, if_true]) ?_
  refine .next (s.shows g1 tx hle (Nat.zero_le _) (Nat.le_refl _) ?_) ?_
  · rw [hl]
    show ((text.take 7).drop 0).take _ = _
    rw [List.drop_zero, Nat.sub_zero, List.take_length]
  · exact .ok _

example : WinFine (WinDocMap.resizeMax docTab ⟨.w64, true⟩ (winDir [] DocMap.this) "data" (DocMap.this.take 7)) :=
  C160_resize_max docTab (winDir_good _ _) (winDir_has _ _) (by decide) (by decide)

example : winEnded (WinDocMap.resizeMax docTab ⟨.w64, true⟩ (winDir [] DocMap.this) "data" (DocMap.this.take 7)) = true := by
  decide +kernel

end Vmap
