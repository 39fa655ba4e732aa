import Verif.Lemmas.Serial
import Verif.Lemmas.CompactSort
import Verif.Model.Grow
/-!
# Lemmas on the automatic growth
-/
namespace Fptu.Grow
open Fptu.Gear Fptu.Rw Fptu.Audit Fptu.Serial Fptu.Compact

theorem copy_cells {m m' : Memory} {p q n i : Nat} (hi : i < n) : m'.writeCells q (m.readCells p n) (q + i) = m (p + i) := by
  rw [Memory.writeCells_apply, Memory.length_readCells, if_pos (by omega), Nat.add_sub_cancel_left]
  unfold Memory.readCells
  rw [List.getD_eq_getElem?_getD, List.getElem?_map, List.getElem?_range hi]
  rfl

theorem shiftBy_moved {σ : Sch} {s : RW} {d : Int} (h : WF σ s) (h0 : 0 ≤ (s.head : Int) + d) (h1 : (s.tail : Int) + d ≤ s.lim) :
    Moved s (shiftBy s d) := by
  have hp := h.inv.hp
  have hb := h.inv.bt
  have hl := h.inv.ll
  have hbase : s.base = s.pivot + s.pre := rfl
  refine ⟨?_, rfl, ?_, fun i hi => copy_cells hi, rfl, rfl, ?_, hl⟩
  · show ((s.pivot : Int) + d).toNat = ((s.head : Int) + d).toNat + (s.pivot - s.head); omega
  · show ((s.tail : Int) + d).toNat = ((s.head : Int) + d).toNat + (s.tail - s.head); omega
  · show ((s.tail : Int) + d).toNat ≤ s.lim; omega

/-- The content can always be moved so that there are `i` free slots and `n` free units, if there is enough free space. -/
theorem shiftOf_room {s : RW} {i n : Nat} (h1 : s.head ≤ s.tail) (h2 : s.tail ≤ s.lim) (hroom : i + n ≤ s.lim - (s.tail - s.head)) :
    (s.tail : Int) + n + shiftOf s i n ≤ s.lim ∧ 0 ≤ (s.head : Int) - i + shiftOf s i n := by
  unfold shiftOf
  simp only
  by_cases c1 : i > s.head
  · rw [if_pos c1]
    generalize (s.lim - (s.tail - s.head)) * (s.pivot - s.head + i) + (s.pivot - s.head + i + (s.tail - s.pivot + n)) - 1 = x
    generalize x / (s.pivot - s.head + i + (s.tail - s.pivot + n)) = y
    omega
  · rw [if_neg c1]
    by_cases c2 : n > s.lim - s.tail
    · rw [if_pos c2]
      generalize (s.lim - (s.tail - s.head)) * (s.tail - s.pivot + n) / (s.pivot - s.head + i + (s.tail - s.pivot + n)) = y
      omega
    · rw [if_neg c2]; omega

theorem transfer_ok {E : Env} {S : Supply} {index size : Nat} {s t : RW} {u : Unit} {σ : Sch} (h : WF σ s)
    (hpre : s.pre = bytes2units E.preBytes) (hk : E.keepJunk = true ∨ (s.jc = 0 ∧ s.jv = 0))
    (e : transfer E S index size s = .ok u t) :
    Moved s t ∧ t.pivot = index ∧ t.lim = min maxUnitsNetto ((size - E.overhead) / 4) := by
  unfold transfer at e
  cases hc : construct E.overhead S.mem size index E.preBytes E.image with
  | error x => rw [hc] at e; cases e
  | ok r =>
    rw [hc] at e
    simp only at e
    have hr : r = create S.mem index (bytes2units E.preBytes) (min maxUnitsNetto ((size - E.overhead) / 4)) E.image := by
      unfold construct at hc
      cases he : estimate E.overhead index 0 E.preBytes false with
      | error x => rw [he] at hc; cases hc
      | ok req =>
        rw [he] at hc
        simp only [Except.bind] at hc
        split_ifs at hc
        injection hc with hc
        exact hc.symm
    have p1 : r.pivot = index := by rw [hr]; rfl
    have p2 : r.lim = min maxUnitsNetto ((size - E.overhead) / 4) := by rw [hr]; rfl
    have p3 : r.pre = bytes2units E.preBytes := by rw [hr]; rfl
    have p4 : r.jc = 0 := by rw [hr]; rfl
    have p5 : r.jv = 0 := by rw [hr]; rfl
    clear hr hc
    by_cases c : r.pivot < s.pivot - s.head ∨ r.lim < r.pivot + (s.tail - s.pivot)
    · rw [if_pos c] at e; cases e
    · rw [if_neg c] at e
      injection e with _ e
      push Not at c
      have hp := h.inv.hp
      have hb := h.inv.bt
      have hbase : s.base = s.pivot + s.pre := rfl
      subst e
      refine ⟨⟨?_, ?_, ?_, fun i hi => copy_cells hi, ?_, ?_, ?_, ?_⟩, p1, p2⟩
      · show r.pivot = r.pivot - (s.pivot - s.head) + (s.pivot - s.head); omega
      · show r.pre = s.pre; rw [p3, hpre]
      · show r.pivot + (s.tail - s.pivot) = r.pivot - (s.pivot - s.head) + (s.tail - s.head); omega
      · show (if E.keepJunk = true then s.jc else r.jc) = s.jc
        by_cases k : E.keepJunk = true
        · rw [if_pos k]
        · rw [if_neg k, p4]
          rcases hk with k' | k'
          · exact absurd k' k
          · exact k'.1.symm
      · show (if E.keepJunk = true then s.jv else r.jv) = s.jv
        by_cases k : E.keepJunk = true
        · rw [if_pos k]
        · rw [if_neg k, p5]
          rcases hk with k' | k'
          · exact absurd k' k
          · exact k'.2.symm
      · show r.pivot + (s.tail - s.pivot) ≤ r.lim; exact c.2
      · show r.lim ≤ 65534
        rw [p2]; exact Nat.min_le_left _ _

theorem estimate_ok {o items data p : Nat} {b : Bool} (h1 : p ≤ maxBytesNetto) (h2 : data ≤ maxBytesNetto - p) (h3 : items ≤ Audit.maxFields) :
    estimate o items data p b = .ok (o + items * 4 + ((if b then data else data + p) + 3) / 4 * 4) := by
  unfold estimate
  rw [if_neg (by omega), if_neg (by omega)]

theorem scales_le {sc : Nat × Nat} (h : sc ∈ scales) : sc.1 ≤ 8191 ∧ sc.2 ≤ maxBytesNetto := by
  have : ∀ x ∈ scales, x.1 ≤ 8191 ∧ x.2 ≤ maxBytesNetto := by decide
  exact this sc h

theorem granulate_ok {o p space : Nat} (hp : p ≤ maxBytesNetto) : ∀ l : List (Nat × Nat), (∀ sc ∈ l, sc.1 ≤ 8191 ∧ sc.2 ≤ maxBytesNetto) →
    ∃ g, granulate o p space l = .ok g ∧ space ≤ g ∧ g ≤ max space (o + 8191 * 4 + maxBytesNetto)
  | [], _ => ⟨space, rfl, le_rfl, by omega⟩
  | sc :: rest, h => by
    obtain ⟨h1, h2⟩ := h sc (by simp)
    have hm : maxBytesNetto = 262136 := rfl
    have e : scaleSpace o p sc = .ok (o + sc.1 * 4 + ((sc.2 - min sc.2 p + p) + 3) / 4 * 4) := by
      unfold scaleSpace
      rw [estimate_ok hp (by omega) h1, if_neg (by decide)]
    rw [granulate, e]
    simp only [Except.bind]
    by_cases c : o + sc.1 * 4 + ((sc.2 - min sc.2 p + p) + 3) / 4 * 4 ≥ space
    · rw [if_pos c]
      exact ⟨_, rfl, c, by omega⟩
    · rw [if_neg c]
      exact granulate_ok hp rest fun x hx => h x (by simp [hx])

/-- The compaction keeps what the growth depends on. -/
theorem compact_step {σ : Sch} {guard : Bool} {srt : List Item → List Item} (hs : Sorter srt) {s t : RW} {u : Unit} (h : WF σ s)
    (e : compactifyWith guard srt σ s = .ok u t) :
    (∃ f, Copied σ s t f) ∧ WF σ t ∧ t.head = s.head + s.jc ∧ t.pivot = s.pivot ∧
      t.pre = s.pre ∧ t.tail = s.tail - s.jv ∧ t.lim = s.lim ∧ t.jc = 0 ∧ t.jv = 0 := by
  obtain ⟨k1, k2, _, k⟩ := compactify_ok hs h e
  exact ⟨k1, k2, k⟩

/-- Moving within the buffer: succeeds whenever the compaction does. -/
theorem shiftPath_spec {E : Env} (hs : Sorter E.srt) {s t : RW} {u : Unit} {i n : Nat} (h : WF E.σ s)
    (hroom : i + n ≤ s.jv + s.jc + (s.lim - (s.tail - s.head))) (e : compactifyWith E.guard E.srt E.σ s = .ok u t) :
    shiftPath E i n s = .ok () (shiftBy t (shiftOf t i n)) ∧ Moved t (shiftBy t (shiftOf t i n)) ∧
      i ≤ (shiftBy t (shiftOf t i n)).head ∧ n ≤ (shiftBy t (shiftOf t i n)).lim - (shiftBy t (shiftOf t i n)).tail := by
  obtain ⟨_, wt, k1, k2, k3, k4, k5, k6, k7⟩ := compact_step hs h e
  have hp := h.inv.hp
  have hb := h.inv.bt
  have htl := h.inv.tl
  have hjc := h.inv.jc_le
  have hbase : s.base = s.pivot + s.pre := rfl
  have hp' := wt.inv.hp
  have hb' := wt.inv.bt
  have htl' := wt.inv.tl
  have hbase' : t.base = t.pivot + t.pre := rfl
  have hvl := h.inv.vol_le (p := 0) (n := 0) (fun u => by rw [ind_zero])
  have room : i + n ≤ t.lim - (t.tail - t.head) := by omega
  obtain ⟨r1, r2⟩ := shiftOf_room (s := t) (i := i) (n := n) (by omega) htl' room
  have m := shiftBy_moved (d := shiftOf t i n) wt (by omega) (by omega)
  refine ⟨?_, m, ?_, ?_⟩
  · unfold shiftPath
    rw [e]
    simp only [Out.bind]
    rw [if_neg (by omega), if_neg (by omega)]
  · show i ≤ ((t.head : Int) + shiftOf t i n).toNat; omega
  · show n ≤ t.lim - ((t.tail : Int) + shiftOf t i n).toNat; omega

/-- autogrowth.cxx:116-191 without `realloc`. -/
def freshBuffer (E : Env) (S : Supply) (i n : Nat) (s : RW) : Out Unit :=
  match estimate E.overhead (growthIndex s i) (growthData s n) E.preBytes false with
  | .error e => .exc e s
  | .ok space =>
    if E.legacy then reallocLegacy E S (growthIndex s i) space s
    else match granulate E.overhead E.preBytes space scales with
      | .error e => .exc e s
      | .ok size => transfer E S (growthIndex s i) (size + S.extra) s

theorem growPath_eq (E : Env) (S : Supply) (i n : Nat) (s : RW) : growPath E S i n s =
    ((if s.tail - s.head + (i + n) ≥ 65535 ∨ s.jv + s.jc + (s.jv + s.jc) > s.tail - s.head then compactifyWith E.guard E.srt E.σ s
      else .ok () s : Out Unit)).bind fun _ s => freshBuffer E S i n s := rfl

/-- The new buffer is large enough. -/
theorem freshBuffer_spec {E : Env} {S : Supply} {s : RW} {i n : Nat} (h : WF E.σ s) (hpre : s.pre = bytes2units E.preBytes)
    (hk : E.keepJunk = true ∨ (s.jc = 0 ∧ s.jv = 0)) (hl : E.legacy = false)
    (hd : E.preBytes = 0 ∨ E.preBytes + 8 * (n + (s.lim - s.pivot)) + 168 ≤ 262136)
    (hidx : s.pivot - s.head + i ≤ 8191) (hfit : min 8191 (2 * (i + s.pivot)) + (s.tail - s.pivot) + n ≤ 65534)
    (hbuf : E.overhead + S.extra ≤ 229372) :
    ∃ t, freshBuffer E S i n s = .ok () t ∧ Moved s t ∧ i ≤ t.head ∧ n ≤ t.lim - t.tail ∧
      (E.preBytes + 8 * (n + (s.lim - s.pivot)) + 168 ≤ 262136 → 1 + n + (s.tail - s.head) ≤ 65534 → 1 + n ≤ t.lim - (t.tail - t.head)) := by
  have hm : maxBytesNetto = 262136 := rfl
  have hmf : Audit.maxFields = 8191 := rfl
  have hp := h.inv.hp
  have hb := h.inv.bt
  have htl := h.inv.tl
  have hll := h.inv.ll
  have hbase : s.base = s.pivot + s.pre := rfl
  have hpb : E.preBytes ≤ maxBytesNetto := by
    have : bytes2units E.preBytes = (E.preBytes + 3) / 4 := by
      unfold bytes2units; rw [Nat.shiftRight_eq_div_pow]
      show (E.preBytes + 4 - 1) / 4 = _; omega
    omega
  have hG : growthIndex s i ≤ 8191 ∧ growthIndex s i ≤ min 8191 (2 * (i + s.pivot)) ∧ s.pivot - s.head + i ≤ growthIndex s i := by
    unfold growthIndex
    split_ifs <;> omega
  have hD : growthData s n ≤ maxBytesNetto - E.preBytes ∧ 4 * (s.tail - s.pivot + n) ≤ growthData s n := by
    unfold growthData
    split_ifs <;> omega
  have hD2 : E.preBytes + 8 * (n + (s.lim - s.pivot)) + 168 ≤ 262136 → 4 * (s.tail - s.pivot + n + 1) ≤ growthData s n := by
    intro _
    unfold growthData
    split_ifs <;> omega
  obtain ⟨g1, g2, g3⟩ := hG
  obtain ⟨d1, d2⟩ := hD
  generalize hGi : growthIndex s i = G at *
  generalize hDi : growthData s n = D at *
  have est := estimate_ok (o := E.overhead) (b := false) hpb d1 (items := G) (by omega)
  rw [if_neg (by decide)] at est
  obtain ⟨size, e1, e2, e3⟩ := granulate_ok (o := E.overhead) (p := E.preBytes)
    (space := E.overhead + G * 4 + (D + E.preBytes + 3) / 4 * 4) hpb scales fun _ => scales_le
  have hcon : construct E.overhead S.mem (size + S.extra) G E.preBytes E.image =
      .ok (create S.mem G (bytes2units E.preBytes) (min maxUnitsNetto ((size + S.extra - E.overhead) / 4)) E.image) := by
    unfold construct
    rw [estimate_ok hpb (by omega) (by omega), if_neg (by decide)]
    simp only [Except.bind]
    have : bufLimit = 524272 := rfl
    rw [if_neg (by omega)]
  have hmu : maxUnitsNetto = 65534 := rfl
  have hlim : G + (s.tail - s.pivot) + n ≤ min maxUnitsNetto ((size + S.extra - E.overhead) / 4) := by
    have : G + (s.tail - s.pivot) + n ≤ (size + S.extra - E.overhead) / 4 := by omega
    omega
  have hlim2 : 4 * (s.tail - s.pivot + n + 1) ≤ D → G + (s.tail - s.pivot) + n + 1 ≤ (size + S.extra - E.overhead) / 4 := by omega
  have hfresh : ∃ t, freshBuffer E S i n s = .ok () t ∧ transfer E S G (size + S.extra) s = .ok () t := by
    have ht : ∃ t, transfer E S G (size + S.extra) s = .ok () t := by
      unfold transfer
      rw [hcon]
      simp only
      rw [if_neg]
      · exact ⟨_, rfl⟩
      · show ¬ (G < s.pivot - s.head ∨ min maxUnitsNetto ((size + S.extra - E.overhead) / 4) < G + (s.tail - s.pivot))
        omega
    obtain ⟨t, ht⟩ := ht
    refine ⟨t, ?_, ht⟩
    unfold freshBuffer
    rw [hGi, hDi, est]
    simp only
    rw [hl, if_neg (by decide), e1]
    exact ht
  obtain ⟨t, f1, f2⟩ := hfresh
  obtain ⟨m, m1, m2⟩ := transfer_ok h hpre hk f2
  have a1 := m.pivot
  have a2 := m.tail
  refine ⟨t, f1, m, by omega, by omega, fun q1 q2 => ?_⟩
  have := hlim2 (hD2 q1)
  omega

end Fptu.Grow
