import Verif.Props.DocMap
/-
C157, continued: the examples in the documentation of maps that assert that a call succeeds, on systems
that grant it.
-/
namespace Vmap
open Kernel Spec

variable {t : Target} {k : Kernel} {path : String}

/-- C157: `Options::open` succeeds for a range inside the file and fails for one beyond it. -/
theorem C157_open (tab : SysTable) (w : Wf t k) (has : FileHas k path DocMap.this) {p : Nat}
    (page : 25 ≤ k.page) (sys : Grants t k p 1) : Good (DocMap.opening tab t k path) := by
  have hpp := w.page_pos
  have one : (4 + k.page - 1) / k.page = 1 := by
    rw [Nat.div_eq_iff hpp]; omega
  obtain ⟨k1, m, fd, e1, w1, pg1, or1, hin, hm⟩ := granted tab w (o := Options.new.setLen (.exact 4))
    ⟨trivial, lim_small, t.lim_pos⟩ has lim_small rfl (fun h => by cases h) rfl rfl rfl rfl rfl rfl sys (by decide)
    (Nat.le_of_eq one)
  obtain ⟨c1, -⟩ := C36_open tab t k (Options.new.setLen (.exact 4)) path
  cases m with
  | none => exact absurd rfl (hin.mp (by show 0 + 4 ≤ 14; decide))
  | some m =>
    obtain ⟨-, hl, x, nm, -, tx, s, -⟩ := hm m rfl
    have hl : m.len = 4 := hl
    refine .next (c1 _ _ _ e1) ?_
    refine .next (a := ()) rfl ?_
    obtain ⟨k2, e2, w2, -, nm2, sz2, dt2, -⟩ := s.drop w1 (by omega) fd
    refine .next e2 ?_
    obtain ⟨k3, r3, e3, w3, -, -, -, ok3⟩ := opened tab w2 (o := Options.new.setLen (.exact 25))
      ⟨trivial, lim_small, t.lim_pos⟩ (.inl ⟨x, by rw [nm2]; exact nm, tx.same sz2 dt2⟩) lim_small rfl
      (by decide) rfl
    refine .next e3 ?_
    cases r3 with
    | ok y => exact absurd (ok3 y.1 y.2 rfl).1 (by show ¬ 0 + 25 ≤ 14; decide)
    | error e => exact .next (a := ()) rfl ⟨_, rfl⟩

example : Good (DocMap.opening docTab ⟨.w64, true⟩ (docKind DocMap.this) "data") :=
  C157_open docTab (docKind_wf _) (docKind_has _) (by decide) (docKind_grants _)

example : ended (DocMap.opening docTab ⟨.w64, true⟩ (docKind DocMap.this) "data") = true := by
  decide +kernel

/-- C157: `Options::open_if` gives a map for a range inside the file and none for one beyond it. -/
theorem C157_open_if (tab : SysTable) (w : Wf t k) (has : FileHas k path DocMap.this) {p : Nat}
    (page : 25 ≤ k.page) (sys : Grants t k p 1) : Good (DocMap.openingIf tab t k path) := by
  have hpp := w.page_pos
  have one : (4 + k.page - 1) / k.page = 1 := by
    rw [Nat.div_eq_iff hpp]; omega
  have one' : (25 + k.page - 1) / k.page = 1 := by
    rw [Nat.div_eq_iff hpp]; omega
  obtain ⟨k1, m, fd, e1, w1, pg1, or1, hin, hm⟩ := granted tab w (o := Options.new.setLen (.exact 4))
    ⟨trivial, lim_small, t.lim_pos⟩ has lim_small rfl (fun h => by cases h) rfl rfl rfl rfl rfl rfl sys (by decide)
    (Nat.le_of_eq one)
  cases m with
  | none => exact absurd rfl (hin.mp (by show 0 + 4 ≤ 14; decide))
  | some m =>
    obtain ⟨hp, hl, x, nm, -, tx, s, -⟩ := hm m rfl
    have hl : m.len = 4 := hl
    refine .next e1 ?_
    refine .next (a := ()) rfl ?_
    obtain ⟨k2, e2, w2, pg2, nm2, sz2, dt2, or2, fr2⟩ := s.drop w1 (by omega) fd
    rw [pg1] at pg2 fr2
    refine .next e2 ?_
    have g2 : Grants t k2 p 1 := sys.again w pg2 (or2.trans or1) hp (by rw [hl]; exact one) fr2
    obtain ⟨k3, m3, fd3, e3, -, -, -, hin3, -⟩ := granted tab w2 (o := Options.new.setLen (.exact 25))
      ⟨trivial, lim_small, t.lim_pos⟩ ⟨x, by rw [nm2]; exact nm, tx.same sz2 dt2⟩ lim_small rfl (fun h => by cases h)
      rfl rfl rfl rfl rfl rfl g2 (by decide) (by rw [pg2]; exact Nat.le_of_eq one')
    refine .next e3 ?_
    cases m3 with
    | some m3 => exact absurd (hin3.mpr (by simp)) (by show ¬ 0 + 25 ≤ 14; decide)
    | none => exact .next (a := ()) rfl (.next (a := ()) rfl ⟨_, rfl⟩)

example : Good (DocMap.openingIf docTab ⟨.w64, true⟩ (docKind DocMap.this) "data") :=
  C157_open_if docTab (docKind_wf _) (docKind_has _) (by decide) (docKind_grants _)

example : ended (DocMap.openingIf docTab ⟨.w64, true⟩ (docKind DocMap.this) "data") = true := by
  decide +kernel

/-- C157: `Options::write`: a map of a file opened only for reading can not be made mutable; if the file
was opened for writing as well, it can. -/
theorem C157_write (tab : SysTable) (w : Wf t k) {text : List Byte} (has : FileHas k path text)
    (small : text.length < t.lim) (some : text ≠ []) {p n : Nat}
    (pages : (text.length + k.page - 1) / k.page = n) (sys : Grants t k p n) :
    Good (DocMap.write tab t k path) := by
  have hpp := w.page_pos
  have hpos : 0 < text.length := List.length_pos_iff.mpr some
  obtain ⟨k1, m, fd, e1, w1, pg1, or1, hin, hm⟩ := granted tab w (o := Options.new)
    ⟨trivial, trivial, t.lim_pos⟩ has small rfl (fun h => by cases h) rfl rfl rfl rfl rfl rfl sys
    (by show 0 < text.length - 0; omega) (Nat.le_of_eq pages)
  obtain ⟨c1, -⟩ := C36_open tab t k Options.new path
  cases m with
  | none => exact absurd rfl (hin.mp (by show 0 ≤ text.length; omega))
  | some m =>
    obtain ⟨hp, hl, x, nm, -, tx, s, ma⟩ := hm m rfl
    have hl : m.len = text.length := hl
    rw [DocMap.write, c1 _ _ _ e1]
    simp only [DocMap.ask]
    obtain ⟨pp, nn, live⟩ := s.live
    obtain ⟨k2, err, e2, -⟩ := C42_not_writable (m := ⟨m⟩) w1 live ma (by show 0 < m.len; omega)
    obtain ⟨k2', r2, e2', w2, sb2, -, -, -, hc⟩ := C42_into_map_mut (m := ⟨m⟩) w1 live ma rfl
    rw [e2] at e2'
    obtain ⟨rfl, rfl⟩ := ok_pair e2'
    have hpt : k2.pt = k1.pt := by
      rcases hc with ⟨m', h, -⟩ | ⟨err, -, -, h⟩
      · cases h
      · exact h
    have s2 : Sees t k2 m x 0 false := s.same sb2.page sb2.size hpt
    refine .next e2 ?_
    refine .next (a := ()) rfl ?_
    obtain ⟨k3, e3, w3, pg3, nm3, sz3, dt3, or3, fr3, -⟩ := s2.dropHere w2 (by omega)
    rw [sb2.page, pg1] at pg3 fr3
    refine .next e3 ?_
    have g3 : Grants t k3 p n := sys.again w pg3 (or3.trans (sb2.oracle.trans or1)) hp
      (by rw [hl]; exact pages) fr3
    obtain ⟨k4, m4, fd4, e4, w4, pg4, or4, hin4, hm4⟩ := granted tab w3 (o := Options.new.write)
      ⟨trivial, trivial, t.lim_pos⟩ ⟨x, by rw [nm3, sb2.names]; exact nm,
        (tx.same sb2.size sb2.data).same sz3 dt3⟩ small rfl (fun _ => rfl) rfl rfl rfl rfl rfl rfl g3
      (by show 0 < text.length - 0; omega) (by rw [pg3]; exact Nat.le_of_eq pages)
    obtain ⟨c4, -⟩ := C36_open tab t k3 Options.new.write path
    cases m4 with
    | none => exact absurd rfl (hin4.mp (by show 0 ≤ text.length; omega))
    | some m4 =>
      obtain ⟨-, hl4, x4, -, -, -, s4, ma4⟩ := hm4 m4 rfl
      have hl4 : m4.len = text.length := hl4
      rw [c4 _ _ _ e4]
      simp only
      obtain ⟨p4, n4, live4⟩ := s4.live
      obtain ⟨k5, e5⟩ := C42_succeeds (m := ⟨m4⟩) w4 live4 (live4.mayWrite w4 (by omega) ma4)
        (by rw [or4]; exact g3.ok _)
      refine .next e5 ?_
      exact .next (a := ()) rfl ⟨_, rfl⟩

example : Good (DocMap.write docTab ⟨.w64, true⟩ (docKind DocMap.about) "data") :=
  C157_write docTab (docKind_wf _) (docKind_has _) (by decide) (by decide) rfl (docKind_grants _)

example : ended (DocMap.write docTab ⟨.w64, true⟩ (docKind DocMap.about) "data") = true := by
  decide +kernel

/-- C157: `Options::map_if` on an open file of 8 bytes. -/
theorem C157_map_if (tab : SysTable) (w : Wf t k) {fd : Nat} {x : Obj} (file : k.fds fd = some ⟨x, true, true⟩)
    {text : List Byte} (has : Text k x text) (eight : text.length = 8) {p : Nat} (page : 25 ≤ k.page)
    (sys : Grants t k p 1) : Good (DocMap.mappingIf tab t k fd) := by
  have hpp := w.page_pos
  have sm : text.length < t.lim := by rw [eight]; exact lim_small
  obtain ⟨k1, m, e1, w1, pg1, or1, fd1, hin, hm⟩ := grantedMap tab w file has sm (l := 4) sys (by decide)
    (by omega) lim_small
  cases m with
  | none => exact absurd rfl (hin.mp (by omega))
  | some m =>
    obtain ⟨hp, hl, tx, s⟩ := hm m rfl
    refine .next e1 ?_
    refine .next (a := ()) rfl ?_
    obtain ⟨k2, e2, w2, pg2, -, sz2, dt2, or2, fr2, fd2⟩ := s.dropHere w1 (by omega)
    rw [pg1] at pg2 fr2
    refine .next e2 ?_
    have g2 : Grants t k2 p 1 := sys.again w pg2 (or2.trans or1) hp
      (by rw [hl, Nat.div_eq_iff hpp]; omega) fr2
    obtain ⟨k3, m3, e3, -, -, -, -, hin3, -⟩ := grantedMap tab w2 (by rw [fd2, fd1]; exact file)
      (tx.same sz2 dt2) sm (l := 25) g2 (by decide) (by omega) lim_small
    refine .next e3 ?_
    cases m3 with
    | some m3 => have := hin3.mpr (by simp); omega
    | none => exact .next (a := ()) rfl (.next (a := ()) rfl ⟨_, rfl⟩)

example : Good (DocMap.mappingIf docTab ⟨.w64, true⟩ (docKind (List.replicate 8 0)) 3) :=
  C157_map_if docTab (docKind_wf _) (x := 0) rfl (text := List.replicate 8 0) ⟨rfl, fun _ _ => rfl⟩ rfl (by decide)
    (docKind_grants _)

example : ended (DocMap.mappingIf docTab ⟨.w64, true⟩ (docKind (List.replicate 8 0)) 3) = true := by
  decide +kernel

/-- C157: `Options::map` on an open file of 8 bytes. -/
theorem C157_map (tab : SysTable) (w : Wf t k) {fd : Nat} {x : Obj} (file : k.fds fd = some ⟨x, true, true⟩)
    {text : List Byte} (has : Text k x text) (eight : text.length = 8) {p : Nat} (page : 25 ≤ k.page)
    (sys : Grants t k p 1) : Good (DocMap.mapping tab t k fd) := by
  have hpp := w.page_pos
  have sm : text.length < t.lim := by rw [eight]; exact lim_small
  obtain ⟨k1, m, e1, w1, pg1, or1, fd1, hin, hm⟩ := grantedMap tab w file has sm (l := 4) sys (by decide)
    (by omega) lim_small
  cases m with
  | none => exact absurd rfl (hin.mp (by omega))
  | some m =>
    obtain ⟨hp, hl, tx, s⟩ := hm m rfl
    refine .next ((C36_map tab t k _ fd).1 _ _ e1) ?_
    refine .next (a := ()) rfl ?_
    obtain ⟨k2, e2, w2, pg2, -, sz2, dt2, or2, fr2, fd2⟩ := s.dropHere w1 (by omega)
    rw [pg1] at pg2 fr2
    refine .next e2 ?_
    have g2 : Grants t k2 p 1 := sys.again w pg2 (or2.trans or1) hp
      (by rw [hl, Nat.div_eq_iff hpp]; omega) fr2
    obtain ⟨k3, m3, e3, -, -, -, -, hin3, -⟩ := grantedMap tab w2 (by rw [fd2, fd1]; exact file)
      (tx.same sz2 dt2) sm (l := 25) g2 (by decide) (by omega) lim_small
    cases m3 with
    | some m3 => have := hin3.mpr (by simp); omega
    | none =>
      obtain ⟨e, e4, -⟩ := (C36_map tab t k2 _ fd).2.2.1 _ e3
      exact .next e4 (.next (a := ()) rfl ⟨_, rfl⟩)

example : Good (DocMap.mapping docTab ⟨.w64, true⟩ (docKind (List.replicate 8 0)) 3) :=
  C157_map docTab (docKind_wf _) (x := 0) rfl (text := List.replicate 8 0) ⟨rfl, fun _ _ => rfl⟩ rfl (by decide)
    (docKind_grants _)

example : ended (DocMap.mapping docTab ⟨.w64, true⟩ (docKind (List.replicate 8 0)) 3) = true := by
  decide +kernel

/-- C157: `Options::copy`: two copy-on-write maps of the same file do not show each other's changes. -/
theorem C157_copy (tab : SysTable) (w : Wf t k) {text : List Byte} (has : FileHas k path text)
    (small : text.length < t.lim) (some : text ≠ []) : Fine (DocMap.copy tab t k path) := by
  obtain ⟨x, nm, tx⟩ := has
  have hpos : 0 < text.length := List.length_pos_iff.mpr some
  obtain ⟨k1, r1, e1, w1, er1, ok1⟩ := openedCopy tab w nm tx small
  refine .ask e1 er1 ?_
  rintro ⟨m1, fd1⟩ h1
  obtain ⟨hl1, pg1, nm1, tx1, ma1, fr1, -, sz1⟩ := ok1 m1 fd1 h1
  obtain ⟨k2, r2, e2, w2, er2, ok2⟩ := openedCopy tab w1 (by rw [nm1]; exact nm) tx1 small
  refine .ask e2 er2 ?_
  rintro ⟨m2, fd2⟩ h2
  obtain ⟨hl2, pg2, nm2, tx2, ma2, fr2, keep, sz2⟩ := ok2 m2 fd2 h2
  have hp1 : 0 < m1.len := by omega
  have hp2 : 0 < m2.len := by omega
  obtain ⟨-, p1, a1, a2⟩ := fr1 0 hp1
  obtain ⟨b0, p2, b1, b2⟩ := fr2 0 hp2
  rw [← pg1] at a1
  have ma1' : k2.MapsAll m1.ptr m1.len x 0 false true ⟨true, true, false⟩ := by
    intro i hi
    obtain ⟨e, c1, c2⟩ := ma1 i hi
    refine ⟨e, by rw [pg2]; exact keep _ _ c1, ?_⟩
    rw [pg2]
    simp only [Kernel.backed, pg2, sz2] at c2 ⊢
    exact c2
  have l1 : k2.load (m1.ptr + 0) = .ok (text.getD 0 0) := by
    rw [Maps.load_fresh (by rw [pg2]; exact keep _ _ a1) a2 (ma1' 0 hp1) rfl, tx2.data _ hpos]
  have l2 : k2.load (m2.ptr + 0) = .ok (text.getD 0 0) := by
    rw [Maps.load_fresh (by rw [pg2]; exact b1) b2 (ma2 0 hp2) rfl, tx2.data _ hpos]
  refine .next (a := text.getD 0 0) (by rw [MapMut.get, if_pos hp1]; exact l1) ?_
  obtain ⟨k3, e3, w3, -, ot, -⟩ := C41_copy_write w2 ma1' rfl rfl hp1 88
  refine .next e3 ?_
  refine .next (a := text.getD 0 0) ?_ ?_
  · rw [MapMut.get, if_pos hp2, ot _ ?_]
    · exact l2
    · intro h
      rw [h] at b0
      rw [b0] at a1
      cases a1
  · exact .next (a := ()) (by simp only [Doc.assert, decide_true, if_true]) (.ok _)

example : Fine (DocMap.copy docTab ⟨.w64, true⟩ (docDir DocMap.about) "data") :=
  C157_copy docTab (docDir_wf _) (docDir_has _) (by decide) (by decide)

example : ended (DocMap.copy docTab ⟨.w64, true⟩ (docDir DocMap.about) "data") = true := by
  decide +kernel

end Vmap
