import Verif.Model.Frames
import Verif.Props.Trajectories
import Verif.Lemmas.Quantile

/-!
# Data frames of chromosomes and particles: C247-C249
-/

namespace Props.Frames

open Py Model

section Any

variable {N V : Type} [DecidableEq N]

theorem columns_mem (ds : List (Dict N V)) :
    (∀ k, k ∈ Monitor.columnsOf ds ↔ ∃ d ∈ ds, k ∈ d.keys) ∧ (Monitor.columnsOf ds).Nodup :=
  Props.Monitor.columns_mem ds

theorem add_known (l cs : List N) (h : ∀ k ∈ l, k ∈ cs) :
    l.foldl (fun cs k => if k ∈ cs then cs else cs ++ [k]) cs = cs := by
  induction l with
  | nil => rfl
  | cons a l ih =>
    rw [List.foldl_cons, if_pos (h a (by simp))]
    exact ih (fun k hk => h k (by simp [hk]))

theorem add_new (l cs : List N) (hl : l.Nodup) (h : ∀ k ∈ l, k ∉ cs) :
    l.foldl (fun cs k => if k ∈ cs then cs else cs ++ [k]) cs = cs ++ l := by
  induction l generalizing cs with
  | nil => simp
  | cons a l ih =>
    rw [List.nodup_cons] at hl
    rw [List.foldl_cons, if_neg (h a (by simp)), ih _ hl.2]
    · simp
    · intro k hk hm
      rw [List.mem_append, List.mem_singleton] at hm
      rcases hm with hm | rfl
      · exact h k (by simp [hk]) hm
      · exact hl.1 hk

/-- When the first dictionary has all the keys, its keys are the columns. -/
theorem columns_first {d : Dict N V} {ds : List (Dict N V)} (hd : d.WF) (h : ∀ e ∈ ds, ∀ k ∈ e.keys, k ∈ d.keys) :
    Monitor.columnsOf (d :: ds) = d.keys := by
  unfold Monitor.columnsOf
  rw [List.foldl_cons, add_new _ _ hd (by simp), List.nil_append]
  induction ds with
  | nil => rfl
  | cons e ds ih =>
    rw [List.foldl_cons, add_known _ _ (h e (by simp))]
    exact ih (fun e' he' => h e' (by simp [he']))

theorem cell (ds : List (Dict N V)) {i j : Nat} (hi : i < ds.length) (hj : j < (Monitor.columnsOf ds).length) :
    ((Table.ofRows ds).rows[i]?.bind (·[j]?)) = some (ds[i].get? (Monitor.columnsOf ds)[j]) := by
  simp [Table.ofRows, List.getElem?_eq_getElem hi, List.getElem?_eq_getElem hj]

theorem column_ofRows (ds : List (Dict N V)) {j : Nat} (hj : j < (Monitor.columnsOf ds).length) :
    (Table.ofRows ds).column j = ds.filterMap (fun d => d.get? (Monitor.columnsOf ds)[j]) := by
  simp only [Table.column, Table.ofRows, List.filterMap_map]
  congr 1
  funext d
  simp [List.getD_eq_getElem?_getD, List.getElem?_eq_getElem hj]

theorem stats_eq {β : Type} (ds : List (Dict N V)) (h : List V → β) :
    (Table.ofRows ds).columns.zipIdx.map (fun ci => (ci.1, h ((Table.ofRows ds).column ci.2))) =
      (Monitor.columnsOf ds).map (fun c => (c, h (ds.filterMap (fun d => d.get? c)))) := by
  have e : (Table.ofRows ds).columns = Monitor.columnsOf ds := rfl
  rw [e]
  refine List.ext_getElem (by simp) (fun j h1 h2 => ?_)
  rw [List.length_map] at h2
  simp only [List.getElem_map, List.getElem_zipIdx, Nat.zero_add]
  rw [column_ofRows ds h2]

theorem get_map {β : Type} (cs : List N) (g : N → β) (k : N) :
    Dict.get? (cs.map (fun c => (c, g c))) k = if k ∈ cs then some (g k) else none := by
  induction cs with
  | nil => rfl
  | cons c cs ih =>
    rw [List.map_cons, Dict.get?_cons, ih]
    by_cases h : c = k
    · subst h; simp
    · rw [if_neg h]
      have : k ∈ c :: cs ↔ k ∈ cs := by
        rw [List.mem_cons]
        exact ⟨fun h' => h'.resolve_left (fun e => h e.symm), .inr⟩
      simp only [this]

theorem values_nil (ds : List (Dict N V)) (k : N) :
    ds.filterMap (fun d => d.get? k) = [] ↔ k ∉ Monitor.columnsOf ds := by
  rw [(columns_mem ds).1]
  constructor
  · rintro h ⟨d, hd, hk⟩
    obtain ⟨v, hv⟩ := (Dict.mem_keys_iff_exists d k).1 hk
    have : v ∈ ds.filterMap (fun d => d.get? k) := List.mem_filterMap.2 ⟨d, hd, hv⟩
    rw [h] at this
    cases this
  · intro h
    rw [List.eq_nil_iff_forall_not_mem]
    intro v hv
    obtain ⟨d, hd, e⟩ := List.mem_filterMap.1 hv
    exact h ⟨d, hd, (Dict.mem_keys_iff_exists d k).2 ⟨v, e⟩⟩

end Any

/-! ## C247 -/

section C247

variable {N V K : Type} [DecidableEq N]

/-- **C247**: `to_df` has a row for every particle and a column for every parameter of any of them, and shows in each cell
what the particle has there. -/
theorem C247 (ps : List (Particle N V K)) :
    (toDf ps).columns.Nodup ∧ (∀ k, k ∈ (toDf ps).columns ↔ ∃ p ∈ ps, p.pars.get? k ≠ none) ∧
    (toDf ps).rows.length = ps.length ∧
    ∀ i (hi : i < ps.length) j (hj : j < (toDf ps).columns.length),
      ((toDf ps).rows[i]?.bind (·[j]?)) = some (ps[i].pars.get? (toDf ps).columns[j]) := by
  have hg : ∀ (p : Pars N V K) k, p.toDict.get? k = p.get? k := by
    intro p k
    cases p <;> rfl
  refine ⟨(columns_mem _).2, fun k => ?_, by simp [toDf, Table.ofRows], fun i hi j hj => ?_⟩
  · refine ((columns_mem _).1 k).trans ?_
    constructor
    · rintro ⟨d, hd, hk⟩
      obtain ⟨p, hp, rfl⟩ := List.mem_map.1 hd
      refine ⟨p, hp, ?_⟩
      rw [← hg]
      exact fun h => (Dict.get?_eq_none_iff _ _).1 h hk
    · rintro ⟨p, hp, h⟩
      refine ⟨_, List.mem_map_of_mem hp, ?_⟩
      rw [← hg] at h
      by_contra hk
      exact h ((Dict.get?_eq_none_iff _ _).2 hk)
  · have := cell (ps.map (fun p : Particle N V K => p.pars.toDict)) (i := i) (j := j) (by simpa using hi) hj
    rw [List.getElem_map, hg] at this
    exact this

/-- **C247** (order): when no particle has parameters that the first does not have, the columns are those of the first, in
its order. -/
theorem C247_order (p : Particle N V K) (ps : List (Particle N V K)) (hp : p.pars.toDict.WF)
    (h : ∀ q ∈ ps, ∀ k, q.pars.get? k ≠ none → p.pars.get? k ≠ none) :
    (toDf (p :: ps)).columns = p.pars.toDict.keys := by
  have hg : ∀ (p : Pars N V K) k, p.toDict.get? k = p.get? k := by
    intro p k
    cases p <;> rfl
  refine columns_first hp ?_
  intro e he k hk
  obtain ⟨q, hq, rfl⟩ := List.mem_map.1 he
  by_contra hn
  have h1 := (Dict.get?_eq_none_iff _ _).2 hn
  rw [hg] at h1
  refine h q hq k ?_ h1
  rw [← hg]
  exact fun h => (Dict.get?_eq_none_iff _ _).1 h hk

/-- **C247** (predictions): `to_pred_df` shows the outputs noted on the particles, and raises `KeyError` when the outputs of
one are not noted. -/
theorem C247_pred (ps : List (Particle N V K)) :
    (∀ ys : List (Dict N (XR K)), List.Forall₂ (fun p y => p.notes.get? "Ys" = some (.ys y)) ps ys →
      ∃ t, toPredDf ps = .ok t ∧ t.columns.Nodup ∧ (∀ k, k ∈ t.columns ↔ ∃ y ∈ ys, y.get? k ≠ none) ∧
        t.rows.length = ys.length ∧ ∀ i (hi : i < ys.length) j (hj : j < t.columns.length),
          (t.rows[i]?.bind (·[j]?)) = some (ys[i].get? t.columns[j])) ∧
    (∀ p ∈ ps, p.notes.get? "Ys" = none → (∀ q ∈ ps, ∀ n, q.notes.get? "Ys" = some n → ∃ y, n = .ys y) →
      toPredDf ps = .error .KeyError) := by
  constructor
  · intro ys h
    have hm : ps.mapM ysOf = .ok ys := by
      induction h with
      | nil => rfl
      | @cons p y ps ys h1 h2 ih =>
        rw [List.mapM_cons, ih]
        simp only [ysOf, h1]
        rfl
    refine ⟨Table.ofRows ys, ?_, (columns_mem _).2, fun k => ?_, by simp [Table.ofRows], fun i hi j hj => cell ys hi hj⟩
    · unfold toPredDf
      rw [hm]
      rfl
    · refine ((columns_mem _).1 k).trans (exists_congr (fun d => and_congr_right (fun _ => ?_)))
      rw [← Dict.get?_isSome_iff, Option.isSome_iff_ne_none]
  · intro p hp hn hall
    have hm : ps.mapM ysOf = .error .KeyError := by
      induction ps with
      | nil => cases hp
      | cons q ps ih =>
        rw [List.mapM_cons]
        rcases hq : q.notes.get? "Ys" with _ | n
        · simp only [ysOf, hq]
          rfl
        · obtain ⟨y, rfl⟩ := hall q (by simp) n hq
          have hp' : p ∈ ps := by
            rcases List.mem_cons.1 hp with rfl | h
            · rw [hn] at hq; cases hq
            · exact h
          have e : ysOf q = .ok y := by simp only [ysOf, hq]
          rw [e, ih hp' (fun q' h' => hall q' (by simp [h']))]
          rfl
    unfold toPredDf
    rw [hm]
    rfl

end C247

/-! ## C248 -/

section C248

variable {N K : Type} [DecidableEq N] [Field K] [LinearOrder K] [IsStrictOrderedRing K] [FloorSemiring K]

theorem sum_fin (zs : List K) : (zs.map XR.fin).sum = .fin zs.sum := by
  induction zs with
  | nil => rfl
  | cons z zs ih => rw [List.map_cons, List.sum_cons, List.sum_cons, ih]; simp

theorem filter_fin (zs : List K) : (zs.map XR.fin).filter (fun x => !x.isNan) = zs.map XR.fin := by
  rw [List.filter_eq_self]
  intro x hx
  obtain ⟨z, -, rfl⟩ := List.mem_map.1 hx
  rfl

theorem meanOf_fin {xs : List (XR K)} {zs : List K} (h : xs.filter (fun x => !x.isNan) = zs.map .fin) (hz : zs ≠ []) :
    meanOf xs = .fin (zs.sum / zs.length) := by
  have hl : (zs.length : K) ≠ 0 := by
    have := List.length_pos_iff.2 hz
    exact_mod_cast this.ne'
  simp only [meanOf, h, List.length_map, sum_fin]
  rw [if_neg (by simpa using hz), XR.fin_div_fin, if_neg hl]

theorem mean_get (genes : List (Chromosome N (XR K) K)) (k : N) : (Chromosome.mean genes).get? k =
    if k ∈ Monitor.columnsOf (genes.map (·.locus)) then some (meanOf (genes.filterMap (fun c => c.locus.get? k))) else none := by
  unfold Chromosome.mean
  simp only
  rw [stats_eq, get_map, List.filterMap_map]
  rfl

/-- **C248**: `Chromosome.mean` has an entry for every variable of any of the chromosomes, and no other; where it is a
number for at least one, the entry is the mean over those for which it is a number. -/
theorem C248 (genes : List (Chromosome N (XR K) K)) (k : N) :
    ((Chromosome.mean genes).get? k = none ↔ ∀ c ∈ genes, c.locus.get? k = none) ∧
    ∀ zs : List K, zs ≠ [] → (genes.filterMap (fun c => c.locus.get? k)).filter (fun x => !x.isNan) = zs.map .fin →
      (Chromosome.mean genes).get? k = some (.fin (zs.sum / zs.length)) := by
  have hv := values_nil (genes.map (·.locus)) k
  rw [List.filterMap_map] at hv
  constructor
  · rw [mean_get]
    constructor
    · intro h
      by_contra hn
      push Not at hn
      obtain ⟨c, hc, h1⟩ := hn
      rw [if_pos] at h
      · cases h
      · rw [(columns_mem _).1]
        refine ⟨c.locus, List.mem_map_of_mem hc, ?_⟩
        by_contra h2
        exact h1 ((Dict.get?_eq_none_iff _ _).2 h2)
    · intro h
      rw [if_neg]
      rw [(columns_mem _).1]
      rintro ⟨d, hd, hk⟩
      obtain ⟨c, hc, rfl⟩ := List.mem_map.1 hd
      exact (Dict.get?_eq_none_iff _ _).1 (h c hc) hk
  · intro zs hz h
    rw [mean_get, if_pos, meanOf_fin h hz]
    by_contra hn
    have := hv.2 hn
    have h' : genes.filterMap (fun c => c.locus.get? k) = [] := this
    rw [h'] at h
    exact hz (by simpa using h.symm)

/-- **C248** (range): a mean lies between the values. -/
theorem C248_range (genes : List (Chromosome N (XR K) K)) (k : N) {lo hi : K} (hne : ∃ c ∈ genes, c.locus.get? k ≠ none)
    (h : ∀ c ∈ genes, ∀ v, c.locus.get? k = some v → ∃ z, v = .fin z ∧ lo ≤ z ∧ z ≤ hi) :
    ∃ m, (Chromosome.mean genes).get? k = some (.fin m) ∧ lo ≤ m ∧ m ≤ hi := by
  obtain ⟨zs, e, hz⟩ : ∃ zs : List K, genes.filterMap (fun c => c.locus.get? k) = zs.map .fin ∧ ∀ z ∈ zs, lo ≤ z ∧ z ≤ hi := by
    clear hne
    induction genes with
    | nil => exact ⟨[], rfl, by simp⟩
    | cons c genes ih =>
      obtain ⟨zs, e, hz⟩ := ih (fun c' hc' => h c' (by simp [hc']))
      rcases hc : c.locus.get? k with _ | v
      · exact ⟨zs, by rw [List.filterMap_cons, hc]; exact e, hz⟩
      · obtain ⟨z, rfl, h1⟩ := h c (by simp) v hc
        refine ⟨z :: zs, by rw [List.filterMap_cons, hc]; simp [e], ?_⟩
        intro y hy
        rcases List.mem_cons.1 hy with rfl | hy
        · exact h1
        · exact hz y hy
  have hzne : zs ≠ [] := by
    rintro rfl
    obtain ⟨c, hc, h1⟩ := hne
    obtain ⟨v, hv⟩ := Option.ne_none_iff_exists'.1 h1
    have : v ∈ genes.filterMap (fun c => c.locus.get? k) := List.mem_filterMap.2 ⟨c, hc, hv⟩
    rw [e] at this
    cases this
  refine ⟨_, (C248 genes k).2 zs hzne (by rw [e, filter_fin]), ?_⟩
  have hl : (0 : K) < zs.length := by exact_mod_cast List.length_pos_iff.2 hzne
  rw [le_div_iff₀ hl, div_le_iff₀ hl]
  constructor
  · have := List.card_nsmul_le_sum zs lo (fun z hz' => (hz z hz').1)
    rw [nsmul_eq_mul] at this
    linarith
  · have := List.sum_le_card_nsmul zs hi (fun z hz' => (hz z hz').2)
    rw [nsmul_eq_mul] at this
    linarith

/-- **C248** (clones): the mean of copies of one chromosome with finite values is that chromosome. -/
theorem C248_clones (c : Chromosome N (XR K) K) (hc : c.locus.WF) (hf : ∀ k v, c.locus.get? k = some v → ∃ z, v = .fin z)
    (n : ℕ) : Chromosome.mean (List.replicate (n + 1) c) = c.locus := by
  have hcol : Monitor.columnsOf ((List.replicate (n + 1) c).map (·.locus)) = c.locus.keys := by
    rw [List.replicate_succ, List.map_cons]
    refine columns_first hc ?_
    intro e he k hk
    obtain ⟨c', h1, rfl⟩ := List.mem_map.1 he
    rw [List.eq_of_mem_replicate h1] at hk
    exact hk
  unfold Chromosome.mean
  simp only
  rw [stats_eq, hcol]
  have hval : ∀ k v, c.locus.get? k = some v →
      meanOf (((List.replicate (n + 1) c).map (·.locus)).filterMap (fun d => d.get? k)) = v := by
    intro k v hk
    obtain ⟨z, rfl⟩ := hf k v hk
    have e : ((List.replicate (n + 1) c).map (·.locus)).filterMap (fun d => d.get? k) = (List.replicate (n + 1) z).map XR.fin := by
      rw [List.map_replicate, List.filterMap_replicate_of_some (f := fun d : Dict N (XR K) => d.get? k) hk, List.map_replicate]
    rw [e, meanOf_fin (filter_fin _) (by simp), List.sum_replicate, List.length_replicate, nsmul_eq_mul,
      mul_div_cancel_left₀ _ (by positivity)]
  have : ∀ kv ∈ c.locus, (fun c' => (c', meanOf (((List.replicate (n + 1) c).map (·.locus)).filterMap (fun d => d.get? c')))) kv.1 = kv := by
    rintro ⟨k, v⟩ hkv
    simp only [hval k v (Dict.get?_of_mem hc hkv)]
  unfold Dict.keys
  rw [List.map_map]
  conv_rhs => rw [← List.map_id c.locus]
  exact List.map_congr_left this

/-- **C248** (order of the chromosomes): the entries do not depend on it. -/
theorem C248_perm {g g' : List (Chromosome N (XR K) K)} (h : g.Perm g') (k : N) :
    (Chromosome.mean g).get? k = (Chromosome.mean g').get? k := by
  have h1 : k ∈ Monitor.columnsOf (g.map (·.locus)) ↔ k ∈ Monitor.columnsOf (g'.map (·.locus)) := by
    rw [(columns_mem _).1, (columns_mem _).1]
    exact exists_congr (fun d => and_congr_left (fun _ => (h.map _).mem_iff))
  have h2 := (h.filterMap (fun c => c.locus.get? k)).filter (fun x => !x.isNan)
  have h3 : meanOf (g.filterMap (fun c => c.locus.get? k)) = meanOf (g'.filterMap (fun c => c.locus.get? k)) := by
    unfold meanOf
    simp only [List.isEmpty_iff_length_eq_zero, h2.length_eq, h2.sum_eq]
  simp only [mean_get, h1, h3]

end C248

/-! ## C249 -/

section C249

variable {N K : Type} [DecidableEq N] [Field K] [LinearOrder K] [IsStrictOrderedRing K] [FloorSemiring K]

theorem minOf_fin (zs : List K) (hz : zs ≠ []) : ∃ m ∈ zs, minOf (zs.map .fin) = .fin m ∧ ∀ z ∈ zs, m ≤ z := by
  obtain ⟨a, l, rfl⟩ := List.exists_cons_of_ne_nil hz
  clear hz
  have h : ∀ a : K, ∃ m ∈ a :: l, (l.map XR.fin).foldl (fun a b => if XR.lt b a then b else a) (.fin a) = .fin m ∧
      ∀ z ∈ a :: l, m ≤ z := by
    induction l with
    | nil => intro a; exact ⟨a, by simp, rfl, by simp⟩
    | cons b l ih =>
      intro a
      rw [List.map_cons, List.foldl_cons]
      by_cases hb : b < a
      · obtain ⟨m, h1, h2, h3⟩ := ih b
        refine ⟨m, List.mem_cons_of_mem _ h1, ?_, ?_⟩
        · rw [if_pos (by simpa [XR.lt] using hb)]; exact h2
        · intro z hz
          rcases List.mem_cons.1 hz with rfl | hz
          · exact (h3 b (by simp)).trans hb.le
          · exact h3 z hz
      · obtain ⟨m, h1, h2, h3⟩ := ih a
        refine ⟨m, ?_, ?_, ?_⟩
        · rcases List.mem_cons.1 h1 with rfl | h1
          · simp
          · simp [h1]
        · rw [if_neg (by simpa [XR.lt] using hb)]; exact h2
        · intro z hz
          rcases List.mem_cons.1 hz with rfl | hz
          · exact h3 _ (by simp)
          rcases List.mem_cons.1 hz with rfl | hz
          · exact (h3 a (by simp)).trans (not_lt.1 hb)
          · exact h3 z (by simp [hz])
  exact h a

theorem maxOf_fin (zs : List K) (hz : zs ≠ []) : ∃ m ∈ zs, maxOf (zs.map .fin) = .fin m ∧ ∀ z ∈ zs, z ≤ m := by
  obtain ⟨a, l, rfl⟩ := List.exists_cons_of_ne_nil hz
  clear hz
  have h : ∀ a : K, ∃ m ∈ a :: l, (l.map XR.fin).foldl (fun a b => if XR.lt a b then b else a) (.fin a) = .fin m ∧
      ∀ z ∈ a :: l, z ≤ m := by
    induction l with
    | nil => intro a; exact ⟨a, by simp, rfl, by simp⟩
    | cons b l ih =>
      intro a
      rw [List.map_cons, List.foldl_cons]
      by_cases hb : a < b
      · obtain ⟨m, h1, h2, h3⟩ := ih b
        refine ⟨m, List.mem_cons_of_mem _ h1, ?_, ?_⟩
        · rw [if_pos (by simpa [XR.lt] using hb)]; exact h2
        · intro z hz
          rcases List.mem_cons.1 hz with rfl | hz
          · exact hb.le.trans (h3 b (by simp))
          · exact h3 z hz
      · obtain ⟨m, h1, h2, h3⟩ := ih a
        refine ⟨m, ?_, ?_, ?_⟩
        · rcases List.mem_cons.1 h1 with rfl | h1
          · simp
          · simp [h1]
        · rw [if_neg (by simpa [XR.lt] using hb)]; exact h2
        · intro z hz
          rcases List.mem_cons.1 hz with rfl | hz
          · exact h3 _ (by simp)
          rcases List.mem_cons.1 hz with rfl | hz
          · exact (not_lt.1 hb).trans (h3 a (by simp))
          · exact h3 z (by simp [hz])
  exact h a

/-- Interpolation in a list. -/
def interp (s : List K) (v : K) : K := s.getD ⌊v⌋₊ 0 + (s.getD (⌊v⌋₊ + 1) 0 - s.getD ⌊v⌋₊ 0) * (v - ⌊v⌋₊)

theorem interp_mono {s : List K} (hs : s.Pairwise (· ≤ ·)) {v w : K} (h0 : 0 ≤ v) (h1 : v ≤ w) (h2 : w ≤ (s.length : K) - 1) :
    interp s v ≤ interp s w := by
  have hm : ∀ a b, a ≤ b → b < s.length → s.getD a 0 ≤ s.getD b 0 := by
    intro a b hab hb
    rw [List.getD_eq_getElem?_getD, List.getD_eq_getElem?_getD, List.getElem?_eq_getElem hb,
      List.getElem?_eq_getElem (lt_of_le_of_lt hab hb)]
    rcases hab.lt_or_eq with h | rfl
    · exact List.pairwise_iff_getElem.1 hs a b _ _ h
    · exact le_rfl
  have hw0 : 0 ≤ w := h0.trans h1
  have fv := Nat.floor_le h0
  have fw := Nat.floor_le hw0
  have gv := Nat.lt_floor_add_one v
  have gw := Nat.lt_floor_add_one w
  have hij : ⌊v⌋₊ ≤ ⌊w⌋₊ := Nat.floor_mono h1
  have hj : ⌊w⌋₊ < s.length := by
    have : ((⌊w⌋₊ : ℕ) : K) < s.length := by linarith
    exact_mod_cast this
  unfold interp
  by_cases hlast : ⌊w⌋₊ + 1 = s.length
  · -- the end of the list
    have hl : (s.length : K) - 1 = ⌊w⌋₊ := by rw [← hlast]; push_cast; ring
    have hwe : w = ⌊w⌋₊ := le_antisymm (by rw [← hl]; exact h2) fw
    rw [show w - (⌊w⌋₊ : K) = 0 by rw [sub_eq_zero]; exact hwe, mul_zero, add_zero]
    rcases hij.lt_or_eq with h | h
    · have a1 := hm ⌊v⌋₊ (⌊v⌋₊ + 1) (by omega) (by omega)
      have a2 := hm (⌊v⌋₊ + 1) ⌊w⌋₊ h hj
      nlinarith
    · have hve : v - (⌊v⌋₊ : K) = 0 := by
        rw [sub_eq_zero]
        refine le_antisymm ?_ fv
        rw [h, ← hwe]
        exact h1
      rw [hve, h]
      simp
  · have a3 := hm ⌊w⌋₊ (⌊w⌋₊ + 1) (by omega) (by omega)
    rcases hij.lt_or_eq with h | h
    · have a1 := hm ⌊v⌋₊ (⌊v⌋₊ + 1) (by omega) (by omega)
      have a2 := hm (⌊v⌋₊ + 1) ⌊w⌋₊ h hj
      nlinarith
    · rw [h]
      rw [h] at fv gv
      nlinarith

theorem quantile_interp {p : K} (h0 : 0 ≤ p) (h1 : p ≤ 1) {zs : List K} (hne : zs ≠ []) :
    quantile (zs.map .fin) (.fin p) = .ok (.fin (interp (zs.insertionSort (· ≤ ·)) (p * ((zs.length : K) - 1)))) := by
  have hsort : (zs.map XR.fin).insertionSort (fun x y => XR.le x y = true) = (zs.insertionSort (· ≤ ·)).map XR.fin := by
    rw [List.map_insertionSort (· ≤ ·) (fun x y => XR.le x y = true)]
    intro a _ b _
    simp
  have hlen : (zs.insertionSort (· ≤ ·)).length = zs.length := (List.perm_insertionSort _ zs).length_eq
  rw [← hlen]
  set s := zs.insertionSort (· ≤ ·) with hs
  have hpos : 0 < s.length := by
    rw [hlen]
    exact List.length_pos_iff.2 hne
  have hnan : (zs.map XR.fin).any XR.isNan = false := by
    rw [List.any_eq_false]
    intro x hx
    obtain ⟨a, -, rfl⟩ := List.mem_map.1 hx
    simp [XR.isNan]
  have hemp : (zs.map XR.fin).isEmpty = false := by simp [hne]
  have hval : (!(XR.le (.fin 0) (.fin p) && XR.le (.fin p) (.fin 1))) = false := by simp [h0, h1]
  have hq : quantile (zs.map XR.fin) (.fin p) =
      if (s.length : K) - 1 ≤ p * ((s.length : K) - 1) then
        .ok ((s.map XR.fin).getD (s.length - 1) .nan)
      else .ok (lerp ((s.map XR.fin).getD ⌊p * ((s.length : K) - 1)⌋₊ .nan)
        ((s.map XR.fin).getD (⌊p * ((s.length : K) - 1)⌋₊ + 1) .nan)
        (.fin (p * ((s.length : K) - 1) - ⌊p * ((s.length : K) - 1)⌋₊))) := by
    unfold quantile
    rw [hval, hemp, hnan, hsort]
    simp only [Bool.false_eq_true, if_false, List.length_map]
  have hget : ∀ i, i < s.length → (s.map XR.fin).getD i .nan = .fin (s.getD i 0) := by
    intro i hi
    rw [List.getD_eq_getElem?_getD, List.getElem?_map, List.getElem?_eq_getElem hi, List.getD_eq_getElem?_getD,
      List.getElem?_eq_getElem hi]
    rfl
  have hone : (1 : K) ≤ s.length := by exact_mod_cast hpos
  have hv0 : 0 ≤ p * ((s.length : K) - 1) := mul_nonneg h0 (by linarith)
  rw [hq]
  unfold interp
  by_cases hc : (s.length : K) - 1 ≤ p * ((s.length : K) - 1)
  · have hle : p * ((s.length : K) - 1) = ((s.length - 1 : ℕ) : K) := by
      rw [Nat.cast_sub hpos, Nat.cast_one]
      nlinarith
    rw [if_pos hc, hle, Nat.floor_natCast, sub_self, mul_zero, add_zero, hget _ (by omega)]
  · rw [if_neg hc]
    push Not at hc
    have hile := Nat.floor_le hv0
    have hi1 : ⌊p * ((s.length : K) - 1)⌋₊ + 1 < s.length := by
      have : (⌊p * ((s.length : K) - 1)⌋₊ : K) + 1 < (s.length : K) := by linarith
      exact_mod_cast this
    rw [hget _ (by omega), hget _ hi1, Lemmas.lerp_fin]

theorem interp_zero (s : List K) : interp s 0 = s.getD 0 0 := by
  simp [interp]

theorem interp_last (s : List K) (h : 0 < s.length) : interp s ((s.length : K) - 1) = s.getD (s.length - 1) 0 := by
  have e : (s.length : K) - 1 = ((s.length - 1 : ℕ) : K) := by rw [Nat.cast_sub h, Nat.cast_one]
  unfold interp
  rw [e, Nat.floor_natCast]
  simp

theorem summarise_eq (sqrt : XR K → XR K) (genes : List (Chromosome N (XR K) K)) {k : N}
    (hcol : k ∈ Monitor.columnsOf (genes.map (·.locus))) :
    Chromosome.summarise sqrt genes = .ok ((Monitor.columnsOf (genes.map (·.locus))).map
      (fun c => (c, describe sqrt ((genes.map (·.locus)).filterMap (fun d => d.get? c))))) := by
  unfold Chromosome.summarise
  simp only
  rw [if_neg, stats_eq]
  intro he
  have he : Monitor.columnsOf (genes.map (·.locus)) = [] := List.isEmpty_iff.1 he
  rw [he] at hcol
  cases hcol

/-- **C249**: `Chromosome.summarise` of chromosomes whose values of a variable are numbers: the count, mean, least and
greatest value are those of the values, and the quartiles are in order between them; the median leaves at least half of
the values at or below it, and at least half of them at or above. -/
theorem C249 (sqrt : XR K → XR K) (genes : List (Chromosome N (XR K) K)) (k : N) {zs : List K} (hz : zs ≠ [])
    (h : genes.filterMap (fun c => c.locus.get? k) = zs.map .fin) :
    ∃ d st, Chromosome.summarise sqrt genes = .ok d ∧ d.get? k = some st ∧ st.count = zs.length ∧
      st.mean = .fin (zs.sum / zs.length) ∧
      ∃ lo q1 q2 q3 hi : K, st.min = .fin lo ∧ st.q25 = .fin q1 ∧ st.q50 = .fin q2 ∧ st.q75 = .fin q3 ∧ st.max = .fin hi ∧
        lo ∈ zs ∧ hi ∈ zs ∧ (∀ z ∈ zs, lo ≤ z ∧ z ≤ hi) ∧ lo ≤ q1 ∧ q1 ≤ q2 ∧ q2 ≤ q3 ∧ q3 ≤ hi ∧
        (1 / 2 : K) * ((zs.length : K) - 1) < (zs.countP (fun x => decide (x ≤ q2)) : K) := by
  have hcol : k ∈ Monitor.columnsOf (genes.map (·.locus)) := by
    by_contra hn
    have := (values_nil (genes.map (·.locus)) k).2 hn
    rw [List.filterMap_map] at this
    have h' : genes.filterMap (fun c => c.locus.get? k) = [] := this
    rw [h] at h'
    exact hz (by simpa using h')
  have hsum := summarise_eq sqrt genes hcol
  have hv : (genes.map (·.locus)).filterMap (fun d => d.get? k) = zs.map .fin := by
    rw [List.filterMap_map]
    exact h
  refine ⟨_, describe sqrt (zs.map .fin), hsum, ?_, ?_, ?_, ?_⟩
  · rw [get_map, if_pos hcol, hv]
  · simp [describe, filter_fin]
  · exact meanOf_fin (filter_fin zs) hz
  · obtain ⟨lo, m1, m2, m3⟩ := minOf_fin zs hz
    obtain ⟨hi, n1, n2, n3⟩ := maxOf_fin zs hz
    have hs : (zs.insertionSort (· ≤ ·)).Pairwise (· ≤ ·) := List.pairwise_insertionSort _ _
    have hperm : (zs.insertionSort (· ≤ ·)).Perm zs := List.perm_insertionSort _ _
    have hlen := hperm.length_eq
    have hpos : 0 < zs.length := List.length_pos_iff.2 hz
    have hone : (1 : K) ≤ zs.length := by exact_mod_cast hpos
    have hmem : ∀ i, i < zs.length → (zs.insertionSort (· ≤ ·)).getD i 0 ∈ zs := by
      intro i hi
      rw [← hlen] at hi
      rw [List.getD_eq_getElem?_getD, List.getElem?_eq_getElem hi]
      exact hperm.mem_iff.1 (List.getElem_mem hi)
    have mono : ∀ {p q : K}, 0 ≤ p → p ≤ q → q ≤ 1 → interp (zs.insertionSort (· ≤ ·)) (p * ((zs.length : K) - 1)) ≤
        interp (zs.insertionSort (· ≤ ·)) (q * ((zs.length : K) - 1)) := by
      intro p q hp hpq hq
      refine interp_mono hs (mul_nonneg hp (by linarith)) (mul_le_mul_of_nonneg_right hpq (by linarith)) ?_
      rw [hlen]
      nlinarith
    have hlo : lo ≤ interp (zs.insertionSort (· ≤ ·)) (0 * ((zs.length : K) - 1)) := by
      rw [zero_mul, interp_zero]
      exact m3 _ (hmem 0 hpos)
    have hhi : interp (zs.insertionSort (· ≤ ·)) (1 * ((zs.length : K) - 1)) ≤ hi := by
      rw [one_mul, ← hlen, interp_last _ (by omega), hlen]
      exact n3 _ (hmem _ (by omega))
    have q : ∀ p : K, 0 ≤ p → p ≤ 1 → (match quantile (zs.map XR.fin) (.fin p) with
        | .ok v => v
        | .error _ => .nan) = XR.fin (interp (zs.insertionSort (· ≤ ·)) (p * ((zs.length : K) - 1))) := by
      intro p a b
      rw [quantile_interp a b hz]
    have a0 : (0 : K) ≤ 1 / 4 := by norm_num
    have a1 : (1 / 4 : K) ≤ 1 / 2 := by norm_num
    have a2 : (1 / 2 : K) ≤ 3 / 4 := by norm_num
    have a3 : (3 / 4 : K) ≤ 1 := by norm_num
    refine ⟨lo, _, _, _, hi, ?_, ?_, ?_, ?_, ?_, m1, n1, fun z hz' => ⟨m3 z hz', n3 z hz'⟩,
      hlo.trans (mono le_rfl a0 (a1.trans (a2.trans a3))), mono a0 a1 (a2.trans a3), mono (a0.trans a1) a2 a3,
      (mono (a0.trans (a1.trans a2)) a3 le_rfl).trans hhi, ?_⟩
    · simp only [describe, filter_fin]; exact m2
    · simp only [describe, filter_fin]; exact q _ a0 (a1.trans (a2.trans a3))
    · simp only [describe, filter_fin]; exact q _ (a0.trans a1) (a2.trans a3)
    · simp only [describe, filter_fin]; exact q _ (a0.trans (a1.trans a2)) a3
    · simp only [describe, filter_fin]; exact n2
    · obtain ⟨r, e, -, -, hr, -⟩ := Lemmas.quantile_fin zs hz (a0.trans a1) (a2.trans a3)
      rw [quantile_interp (a0.trans a1) (a2.trans a3) hz] at e
      cases e
      exact hr

/-- **C249** (standard deviation): of one number it is NaN; of more it is the root of the sum of squares around the mean
over one less than the count. -/
theorem C249_std (sqrt : XR K → XR K) (genes : List (Chromosome N (XR K) K)) (k : N) {zs : List K} (hz : zs ≠ [])
    (h : genes.filterMap (fun c => c.locus.get? k) = zs.map .fin) :
    ∃ d st, Chromosome.summarise sqrt genes = .ok d ∧ d.get? k = some st ∧ (zs.length = 1 → st.std = .nan) ∧
      (2 ≤ zs.length → st.std = sqrt (.fin ((zs.map (fun z => (z - zs.sum / zs.length) ^ 2)).sum / ((zs.length : K) - 1)))) := by
  have hcol : k ∈ Monitor.columnsOf (genes.map (·.locus)) := by
    by_contra hn
    have := (values_nil (genes.map (·.locus)) k).2 hn
    rw [List.filterMap_map] at this
    have h' : genes.filterMap (fun c => c.locus.get? k) = [] := this
    rw [h] at h'
    exact hz (by simpa using h')
  have hv : (genes.map (·.locus)).filterMap (fun d => d.get? k) = zs.map .fin := by
    rw [List.filterMap_map]
    exact h
  refine ⟨_, describe sqrt (zs.map .fin), summarise_eq sqrt genes hcol, ?_, ?_, ?_⟩
  · rw [get_map, if_pos hcol, hv]
  · intro h1
    simp [describe, filter_fin, h1]
  · intro h2
    have hl : (zs.length : K) - 1 ≠ 0 := by
      have : (2 : K) ≤ zs.length := by exact_mod_cast h2
      intro hc
      linarith
    simp only [describe, filter_fin, List.length_map, meanOf_fin (filter_fin zs) hz]
    rw [if_neg (by omega), List.map_map]
    have e : (fun y : XR K => (y - .fin (zs.sum / zs.length)).sq) ∘ XR.fin =
        XR.fin ∘ fun z => (z - zs.sum / zs.length) ^ 2 := by
      funext z
      simp [XR.sq, pow_two]
    rw [e, ← List.map_map, sum_fin, XR.fin_div_fin, if_neg hl]

/-- **C249** (nothing): `summarise` raises `ValueError` exactly when no chromosome has a variable. -/
theorem C249_none (sqrt : XR K → XR K) (genes : List (Chromosome N (XR K) K)) :
    Chromosome.summarise sqrt genes = .error .ValueError ↔ ∀ c ∈ genes, ∀ k, c.locus.get? k = none := by
  constructor
  · intro h c hc k
    by_contra hk
    have hcol : k ∈ Monitor.columnsOf (genes.map (·.locus)) := by
      refine ((columns_mem _).1 k).2 ⟨_, List.mem_map_of_mem hc, ?_⟩
      by_contra hn
      exact hk ((Dict.get?_eq_none_iff _ _).2 hn)
    rw [summarise_eq sqrt genes hcol] at h
    cases h
  · intro h
    have he : Monitor.columnsOf (genes.map (·.locus)) = [] := by
      rw [List.eq_nil_iff_forall_not_mem]
      intro k hk
      obtain ⟨d, hd, hk⟩ := ((columns_mem _).1 k).1 hk
      obtain ⟨c, hc, rfl⟩ := List.mem_map.1 hd
      exact (Dict.get?_eq_none_iff _ _).1 (h c hc k) hk
    unfold Chromosome.summarise
    simp only
    rw [if_pos]
    exact List.isEmpty_iff.2 he

end C249

/-! ## C250 -/

section C250

variable {N K : Type} [DecidableEq N] [Field K] [LinearOrder K] [IsStrictOrderedRing K] [FloorSemiring K]

theorem toData_get (logKey : N) (c : Chromosome N (XR K) K) (k : N) : (c.toData logKey).get? k =
    if k = logKey ∧ c.logProb ≠ .nan then some c.logProb else c.locus.get? k := by
  unfold Chromosome.toData
  have hev : c.isEvaluated = true ↔ c.logProb ≠ .nan := by
    unfold Chromosome.isEvaluated
    cases c.logProb <;> simp [XR.isNan]
  by_cases h : c.isEvaluated = true
  · rw [if_pos h, Dict.get?_set]
    have := hev.1 h
    by_cases hk : logKey = k
    · rw [if_pos hk, if_pos ⟨hk.symm, this⟩]
    · rw [if_neg hk, if_neg (fun h' => hk h'.1.symm)]
  · rw [if_neg h, if_neg (fun h' => h (hev.2 h'.2))]

/-- **C250**, for chromosomes without a variable of the name `LogProb`: the data frame has a row for each chromosome, shows
in each cell of a variable what the chromosome has there, and in the cell of `LogProb` the log probability where there is
one; `LogProb` is a column exactly when one of the chromosomes has been evaluated. -/
theorem C250_partial (logKey : N) (genes : List (Chromosome N (XR K) K)) (hn : ∀ c ∈ genes, c.locus.get? logKey = none) :
    (Chromosome.toDataFrame logKey genes).rows.length = genes.length ∧
    (logKey ∈ (Chromosome.toDataFrame logKey genes).columns ↔ ∃ c ∈ genes, c.logProb ≠ .nan) ∧
    (∀ k, k ≠ logKey → (k ∈ (Chromosome.toDataFrame logKey genes).columns ↔ ∃ c ∈ genes, c.locus.get? k ≠ none)) ∧
    ∀ i (hi : i < genes.length) j (hj : j < (Chromosome.toDataFrame logKey genes).columns.length),
      ((Chromosome.toDataFrame logKey genes).rows[i]?.bind (·[j]?)) =
        some (if (Chromosome.toDataFrame logKey genes).columns[j] = logKey then
            (if genes[i].logProb = .nan then none else some genes[i].logProb)
          else genes[i].locus.get? (Chromosome.toDataFrame logKey genes).columns[j]) := by
  have hmem : ∀ k, k ∈ (Chromosome.toDataFrame logKey genes).columns ↔ ∃ c ∈ genes, (c.toData logKey).get? k ≠ none := by
    intro k
    refine ((columns_mem _).1 k).trans ?_
    constructor
    · rintro ⟨d, hd, hk⟩
      obtain ⟨c, hc, rfl⟩ := List.mem_map.1 hd
      exact ⟨c, hc, fun h => (Dict.get?_eq_none_iff _ _).1 h hk⟩
    · rintro ⟨c, hc, h⟩
      refine ⟨_, List.mem_map_of_mem hc, ?_⟩
      by_contra hk
      exact h ((Dict.get?_eq_none_iff _ _).2 hk)
  refine ⟨by simp [Chromosome.toDataFrame, Table.ofRows], ?_, ?_, ?_⟩
  · rw [hmem]
    refine exists_congr (fun c => and_congr_right (fun hc => ?_))
    rw [toData_get]
    by_cases h : c.logProb = .nan
    · simp [h, hn c hc]
    · simp [h]
  · intro k hk
    rw [hmem]
    refine exists_congr (fun c => and_congr_right (fun hc => ?_))
    rw [toData_get, if_neg (fun h => hk h.1)]
  · intro i hi j hj
    have := cell (genes.map (fun c : Chromosome N (XR K) K => c.toData logKey)) (i := i) (j := j) (by simpa using hi) hj
    rw [List.getElem_map, toData_get] at this
    refine this.trans ?_
    change some (if (Chromosome.toDataFrame logKey genes).columns[j] = logKey ∧ _ then _ else
      genes[i].locus.get? (Chromosome.toDataFrame logKey genes).columns[j]) = _
    by_cases hk : (Chromosome.toDataFrame logKey genes).columns[j] = logKey
    · by_cases h : genes[i].logProb = .nan
      · simp [hk, h, hn _ (List.getElem_mem hi)]
      · simp [hk, h]
    · simp [hk]

/-- **C250** is false of a chromosome with a variable of that name: its value is replaced by the log probability, so
chromosomes with different parameters have the same data frame. -/
theorem C250_refuted : ∃ c c' : Chromosome String (XR ℚ) ℚ, c.locus.WF ∧ c'.locus.WF ∧ c.locus ≠ c'.locus ∧
    Chromosome.toDataFrame "LogProb" [c] = Chromosome.toDataFrame "LogProb" [c'] :=
  ⟨⟨[("LogProb", .fin 3)], .fin (-1)⟩, ⟨[("LogProb", .fin 4)], .fin (-1)⟩, by simp [Dict.WF, Dict.keys],
    by simp [Dict.WF, Dict.keys], by decide +kernel, by decide +kernel⟩

end C250

/-! ## Examples -/

/-- Two particles, one of them with a parameter more. -/
def twoParticles : List (Particle String (XR ℚ) ℚ) :=
  [⟨.chrom ⟨[("a", .fin 1)], .fin (-1)⟩, [], [("Ys", .ys [("y", .fin 5)])]⟩, ⟨.plain [("b", .fin 3), ("a", .fin 2)], [], []⟩]

example : toDf twoParticles = ⟨["a", "b"], [[some (.fin 1), none], [some (.fin 2), some (.fin 3)]]⟩ := by decide +kernel

example : toDf (twoParticles.take 1 ++ twoParticles.take 1) = ⟨["a"], [[some (.fin 1)], [some (.fin 1)]]⟩ ∧
    (toDf (twoParticles.take 1 ++ twoParticles.take 1)).columns = ["a"] := by
  refine ⟨by decide +kernel, ?_⟩
  exact C247_order _ _ (by simp [Pars.toDict, Dict.WF, Dict.keys]) (by
    intro q hq k h
    obtain rfl := List.mem_singleton.1 hq
    exact h)

example : toPredDf (twoParticles.take 1) = .ok ⟨["y"], [[some (.fin 5)]]⟩ ∧ toPredDf twoParticles = .error .KeyError := by
  decide +kernel

/-- Three chromosomes, one of them without a number for `b`. -/
def threeGenes : List (Chromosome String (XR ℚ) ℚ) :=
  [⟨[("a", .fin 1), ("b", .fin 2)], .fin (-1)⟩, ⟨[("a", .fin 2)], .fin (-1)⟩, ⟨[("b", .nan), ("a", .fin 6)], .fin 0⟩]

example : Chromosome.mean threeGenes = [("a", .fin 3), ("b", .fin 2)] := by decide +kernel

example : (Chromosome.mean threeGenes).get? "a" = some (.fin 3) := by
  have := (C248 threeGenes "a").2 [1, 2, 6] (by simp) (by decide +kernel)
  norm_num at this
  exact this

example : ∃ m, (Chromosome.mean threeGenes).get? "a" = some (.fin m) ∧ 1 ≤ m ∧ m ≤ 6 := by
  refine C248_range threeGenes "a" ⟨_, List.mem_cons_self, by decide +kernel⟩ ?_
  intro c hc v hv
  simp only [threeGenes, List.mem_cons, List.not_mem_nil, or_false] at hc
  rcases hc with rfl | rfl | rfl <;> (cases hv; exact ⟨_, rfl, by norm_num, by norm_num⟩)

example : ∃ d st, Chromosome.summarise id threeGenes = .ok d ∧ d.get? "a" = some st ∧ st.count = 3 ∧
    st.std = .fin 7 := by
  obtain ⟨d, st, h1, h2, -, h3⟩ := C249_std id threeGenes "a" (zs := [1, 2, 6]) (by simp) (by decide +kernel)
  obtain ⟨d', st', e1, e2, e3, -⟩ := C249 id threeGenes "a" (zs := [1, 2, 6]) (by simp) (by decide +kernel)
  rw [h1] at e1
  cases e1
  rw [h2] at e2
  cases e2
  refine ⟨d, st, h1, h2, e3, ?_⟩
  have := h3 (by simp)
  norm_num at this
  exact this

example : Chromosome.summarise id ([⟨[], .fin 0⟩] : List (Chromosome String (XR ℚ) ℚ)) = .error .ValueError :=
  (C249_none _ _).2 (by simp [Dict.get?])


example : Chromosome.toDataFrame "LogProb" (threeGenes ++ [⟨[("c", .fin 0)], .nan⟩]) = ⟨["a", "b", "LogProb", "c"],
    [[some (.fin 1), some (.fin 2), some (.fin (-1)), none], [some (.fin 2), none, some (.fin (-1)), none],
      [some (.fin 6), some .nan, some (.fin 0), none], [none, none, none, some (.fin 0)]]⟩ := by decide +kernel

example : "LogProb" ∈ (Chromosome.toDataFrame "LogProb" threeGenes).columns :=
  (C250_partial "LogProb" threeGenes (by decide +kernel)).2.1.2 ⟨_, List.mem_cons_self, by simp⟩

end Props.Frames
