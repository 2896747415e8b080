import Verif.Model.MpiErrors
import Verif.Props.Communicators
import Verif.Props.PoissonRanks
import Verif.Props.BricksWitness

/-!
# Ranks finish together when some of them raise (C124)

Same setting as `Verif/Props/Ranks.lean`.
-/

namespace Verif.Props.RankErrors

open Verif Verif.Model Verif.Model.Mpi Verif.Spec.Mpi Verif.Lemmas.Mpi Verif.Props.Ranks Verif.Props.Communicators

variable {C α : Type} {n : ℕ} {members : C → List (Fin n)}

/-- The rank ends with `o`: it can do nothing else, and has done so once nothing more can happen. -/
def RankEnds (members : C → List (Fin n)) (s : Machine C α n) (r : Fin n) (o : Except Err α) : Prop :=
  ∀ u, Reach members s u → (Final members u → u r = .done o) ∧ ∀ o', u r = .done o' → o' = o

/-- Some execution leads ranks `G` from `p` to `q`. -/
def Leads (members : C → List (Fin n)) (G : List (Fin n)) (p q : ℕ → Prog C α) : Prop :=
  ∀ s, Runs G p s → ∃ t, Reach members s t ∧ Runs G q t

theorem Leads.refl (G : List (Fin n)) (p : ℕ → Prog C α) : Leads members G p p := fun s hs => ⟨s, .refl, hs⟩

theorem Leads.congr {G : List (Fin n)} {p p' q : ℕ → Prog C α} (h : Leads members G p q) (he : ∀ i < G.length, p' i = p i) :
    Leads members G p' q := fun s hs => h s fun i hi => (hs i hi).trans (he i hi)

theorem Leads.call {G : List (Fin n)} {c : C} (hc : members c = G) (hG : G.Nodup) (hne : G ≠ []) (op : Op) {β : Type} (x : ℕ → β)
    (k : ℕ → List β → Prog C α) {q : ℕ → Prog C α} (h : Leads members G (fun i => k i ((List.range G.length).map x)) q) :
    Leads members G (fun i => .call c op (x i) (k i)) q := by
  intro s hs
  obtain ⟨t, ht, ho⟩ := exists_next hG (fun i => k i ((List.range G.length).map x)) s
  obtain ⟨u, hu, hd⟩ := h t ht
  refine ⟨u, Relation.ReflTransGen.head ⟨c, op, β, x, k, ?_, ?_, ?_, ?_⟩ hu, hd⟩
  · rw [hc]; exact hne
  · rw [hc]; exact hs
  · rw [hc]; exact ht
  · rw [hc]; exact ho

theorem Leads.trans {G : List (Fin n)} {p q r : ℕ → Prog C α} (h : Leads members G p q) (h' : Leads members G q r) : Leads members G p r := by
  intro s hs
  obtain ⟨t, ht, hq⟩ := h s hs
  obtain ⟨u, hu, hr⟩ := h' t hq
  exact ⟨u, ht.trans hu, hr⟩

theorem Leads.path {G : List (Fin n)} {p q : ℕ → Prog C α} {out : ℕ → Except Err α} (h : Leads members G p q)
    (he : ∀ i < G.length, q i = .done (out i)) : Ends members G p out := by
  constructor
  · intro s u hs hu hf i hi
    obtain ⟨t, ht, hd⟩ := h s hs
    obtain ⟨v, hv, huv⟩ := confluent ht hu
    have : v = u := by
      rcases Relation.ReflTransGen.cases_head huv with h | ⟨w, hw, -⟩
      · exact h.symm
      · exact absurd hw (hf w)
    subst this
    exact done_reach hv ((hd i hi).trans (he i hi))
  · intro s u hs hu i hi o hio
    obtain ⟨t, ht, hd⟩ := h s hs
    obtain ⟨v, hv, huv⟩ := confluent ht hu
    have e := (done_reach hv ((hd i hi).trans (he i hi))).symm.trans (done_reach huv hio)
    simp only [Prog.done.injEq] at e
    exact e.symm

theorem Leads.rankEnds {G : List (Fin n)} {p q : ℕ → Prog C α} (h : Leads members G p q) {a : ℕ} (ha : a < G.length) {o : Except Err α}
    (he : q a = .done o) {s : Machine C α n} (hs : Runs G p s) : RankEnds members s G[a] o := by
  intro u hu
  obtain ⟨t, ht, hd⟩ := h s hs
  obtain ⟨v, hv, huv⟩ := confluent ht hu
  have e := done_reach hv ((hd a ha).trans he)
  refine ⟨fun hf => ?_, fun o' ho' => ?_⟩
  · rcases Relation.ReflTransGen.cases_head huv with h | ⟨w, hw, -⟩
    · rw [h]; exact e
    · exact absurd hw (hf w)
  · have e' := e.symm.trans (done_reach huv ho')
    simp only [Prog.done.injEq] at e'
    exact e'.symm

theorem avoids_reach {s t : Machine C α n} (h : Reach members s t) {c : C} {q : Fin n} (hq : Avoids c (s q)) : Avoids c (t q) := by
  induction h with
  | refl => exact hq
  | tail _ hst ih => exact avoids_step hst ih

/-- Once at `q`, rank `b` waits for a rank that makes no call any more. -/
theorem Leads.never {G : List (Fin n)} {p q : ℕ → Prog C α} (h : Leads members G p q) {b : ℕ} (hb : b < G.length) {c : C} {op : Op}
    {β : Type} {x : β} {k : List β → Prog C α} (he : q b = .call c op x k) {s : Machine C α n} (hs : Runs G p s) {w : Fin n}
    (hw : w ∈ members c) (ha : ∀ t, Reach members s t → Runs G q t → Avoids c (t w)) : Never members s G[b] := by
  intro u hu o ho
  obtain ⟨t, ht, hd⟩ := h s hs
  obtain ⟨v, hv, huv⟩ := confluent ht hu
  have e := waits hv hw (ha t ht hd) ((hd b hb).trans he)
  rw [done_reach huv ho] at e
  cases e

/-- A rank has raised, another one waits for it. -/
theorem Leads.hangs {G : List (Fin n)} {p q : ℕ → Prog C α} (h : Leads members G p q) {comm : C} (hc : members comm = G) {a b : ℕ}
    (ha : a < G.length) (hb : b < G.length) {e : Err} (hqa : q a = .done (.error e))
    (hqb : ∃ (op : Op) (β : Type) (x : β) (k : List β → Prog C α), q b = .call comm op x k) {s : Machine C α n} (hs : Runs G p s) :
    RankEnds members s G[a] (.error e) ∧ Never members s G[b] := by
  obtain ⟨op, β, x, k, hqb⟩ := hqb
  refine ⟨h.rankEnds ha hqa hs, h.never hb hqb hs (w := G[a]) ?_ fun t _ ht => by rw [ht a ha, hqa]; trivial⟩
  rw [hc]
  exact List.getElem_mem ha

/-! ### Masks -/

/-- C124 holds for calls of masks where the probabilities can be computed on all ranks: all ranks return; rows are kept or not as on one
process (C123). -/
theorem C124_mask_partial {G : List (Fin n)} {comm : C} (hc : members comm = G) (hG : G.Nodup) (hne : G ≠ [])
    (prob : List α → Except Err (List ℝ)) (f : α → ℝ) (u : ℕ → ℕ → ℝ) (rows : List (List α)) (hl : rows.length = G.length)
    (hp : ∀ r ∈ rows, prob r = .ok (r.map f)) :
    Ends members G (fun i => Mpi.maskCall comm prob u i (rows.getD i [])) fun i => .ok ((maskRanks f u rows).getD i []) := by
  have hi : ∀ i < G.length, rows.getD i [] ∈ rows := fun i hi => by
    have : i < rows.length := by omega
    simp [this]
  have h : Leads members G (fun i => Prog.call comm (.bcast 0) () fun _ =>
      .call comm .allgather (rows.getD i []).length fun sizes => .done (.ok (open Classical in ((rows.getD i []).map f).mapIdx fun j x =>
        decide (u sizes.sum ((sizes.take i).sum + j) ≤ x)))) _ :=
    Leads.call hc hG hne _ _ _ (Leads.call hc hG hne _ _ _ (Leads.refl _ _))
  have e : (List.range G.length).map (fun i => (rows.getD i []).length) = rows.map List.length := by
    rw [← hl, ← Function.comp_def List.length, ← List.map_map, range_map_getD]
  refine (h.congr fun i hi' => ?_).path fun i hi' => ?_
  · unfold Mpi.maskCall
    rw [hp _ (hi i hi')]
    simp
  · simp only [e]
    congr 2
    have hi2 : i < rows.length := by omega
    unfold maskRanks mpiDraw
    simp only [List.getD_eq_getElem?_getD, List.getElem?_zipWith, List.getElem?_eq_getElem hi2, List.getElem?_mapIdx, Option.map_some,
      Option.getD_some]
    apply List.ext_getElem
    · simp
    · intro j h1 h2
      simp [List.map_take, List.length_flatten]

/-- C124 fails for calls of masks: if the probabilities cannot be computed on a rank, the ranks where they can wait for it for ever. -/
theorem C124_mask_violated {G : List (Fin n)} {comm : C} (hc : members comm = G) (prob : List α → Except Err (List ℝ)) (u : ℕ → ℕ → ℝ)
    (rows : List (List α)) {a b : ℕ} (ha : a < G.length) (hb : b < G.length) {e : Err} (hpa : prob (rows.getD a []) = .error e)
    {p : List ℝ} (hpb : prob (rows.getD b []) = .ok p) (s : Machine C (List Bool) n)
    (hs : Runs G (fun i => Mpi.maskCall comm prob u i (rows.getD i [])) s) :
    RankEnds members s G[a] (.error e) ∧ Never members s G[b] := by
  refine (Leads.refl G _).hangs hc ha hb (e := e) ?_ ?_ hs
  · unfold Mpi.maskCall
    rw [hpa]
  · unfold Mpi.maskCall
    rw [hpb]
    exact ⟨_, _, _, _, rfl⟩

/-- C124 fails for Healpix masks: a declination that is not a number, or above 90, raises `ValueError` on its rank, ranks whose
declinations are between -90 and 90 wait for ever. -/
theorem C124_healpix_violated {G : List (Fin n)} {comm : C} (hc : members comm = G) (nbar : List ℝ) (rarange decrange : Option Range)
    (pix : ℝ → ℝ → ℕ) (u : ℕ → ℕ → ℝ) (rows : List (List (ℝ × Option ℝ))) {a b : ℕ} (ha : a < G.length) (hb : b < G.length)
    (hpa : ∃ r ∈ rows.getD a [], ∀ dec, r.2 = some dec → 90 < dec) (hpb : ∀ r ∈ rows.getD b [], ∃ dec, r.2 = some dec ∧ -90 ≤ dec ∧ dec ≤ 90)
    (s : Machine C (List Bool) n) (hs : Runs G (fun i => Mpi.maskCall comm (healpixRows nbar rarange decrange pix) u i (rows.getD i [])) s) :
    RankEnds members s G[a] (.error .valueError) ∧ Never members s G[b] := by
  refine C124_mask_violated hc _ u rows ha hb ?_ (if_pos ?_) s hs
  · unfold healpixRows
    refine if_neg fun h => ?_
    obtain ⟨r, hr, hd⟩ := hpa
    obtain ⟨dec, h1, h2, -⟩ := h r hr
    have := hd dec h1
    have : (-dec + 90) * Real.pi / 180 < 0 := by
      have := Real.pi_pos
      have : (-dec + 90) * Real.pi < 0 := mul_neg_of_neg_of_pos (by linarith) this
      linarith
    linarith
  · intro r hr
    obtain ⟨dec, h1, h2, h3⟩ := hpb r hr
    refine ⟨dec, h1, ?_, ?_⟩
    · have := Real.pi_pos
      have : 0 ≤ (-dec + 90) * Real.pi := mul_nonneg (by linarith) this.le
      linarith
    · have := Real.pi_pos
      have : (-dec + 90) * Real.pi ≤ 180 * Real.pi := mul_le_mul_of_nonneg_right (by linarith) this.le
      linarith

/-! ### Poisson sampling -/

section poisson
open Verif.Props.PoissonRanks

variable (M : Mesh)

theorem mem_chunks {chunk : ℕ} {lam : List (List ℝ)} {i : ℕ} {x : ℝ} :
    x ∈ chunks chunk lam i ↔ ∃ j k, lam.flatten[j]? = some x ∧ ((lam.take i).map List.length).sum ≤ k ∧
      k < ((lam.take i).map List.length).sum + (lam.getD i []).length ∧ j / chunk = k / chunk := by
  unfold chunks
  simp only [List.mem_map, List.mem_filter, List.mem_range, decide_eq_true_eq, Prod.exists, List.mem_zipIdx_iff_getElem?]
  constructor
  · rintro ⟨y, j, ⟨hj, l, hl, he⟩, rfl⟩
    exact ⟨j, _, hj, Nat.le_add_right _ l, by omega, he.symm⟩
  · rintro ⟨j, k, hj, h1, h2, h3⟩
    exact ⟨x, j, ⟨hj, k - ((lam.take i).map List.length).sum, by omega, by rw [Nat.add_sub_cancel' h1, h3]⟩, rfl⟩

theorem ravel_ranks {G : List (Fin n)} (s : M.Fields) (ranks : List (List M.Idx)) (hl : ranks.length = G.length) :
    (List.range G.length).map (fun i => (ranks.getD i []).map fun k => (M.cellId k, M.cellMean s k)) =
      ranks.map fun nodes => nodes.map fun k => (M.cellId k, M.cellMean s k) := by
  rw [← hl]
  conv_rhs => rw [← range_map_getD ranks [], List.map_map]
  rfl

/-- What is left to do once the chunks are exchanged. -/
theorem poisson_leads {G : List (Fin n)} {comm : C} (hc : members comm = G) (hG : G.Nodup) (hne : G ≠ []) (s : M.Fields)
    (pois : List ℝ → ℕ → ℕ) (u : ℕ → ℕ → Fin 3 → ℝ) (chunk : ℕ) (ranks : List (List M.Idx)) (hl : ranks.length = G.length) :
    Leads members G (fun i => poisson comm M s pois u chunk i (ranks.getD i [])) (fun i =>
      open Classical in
      if ∃ x ∈ chunks chunk (M.ravel ranks (M.cellMean s)) i, x < 0 then .done (.error .valueError)
      else
        .call comm (.other "unravel") ((mpiDraw pois (M.ravel ranks (M.cellMean s))).getD i []) fun number =>
        .call comm .allreduce () fun _ =>
        .call comm (.other "sort") (M.repeated (M.unravel number) (ranks.getD i [])) fun rows =>
        .call comm .allgather ((mpiSort rows).getD i []).length fun _ =>
        .done (.ok (List.zipWith (fun p v d => p d + (0 + (M.cell d - 0) * v d) + (M.boxcenter d - M.boxsize d / 2))
          ((mpiSort rows).getD i []) ((mpiDraw (fun rows j => u rows.length j) (mpiSort rows)).getD i [])))) := by
  unfold poisson
  refine Leads.call hc hG hne _ _ _ (Leads.call hc hG hne _ _ _ (Leads.call hc hG hne _ _ _ (Leads.call hc hG hne _ _ _ ?_)))
  rw [ravel_ranks M s ranks hl]
  exact Leads.refl _ _

/-- Numbers of the nodes, in order, for which rank `i` draws: as many as it holds, those of previous ranks coming first. -/
def Draws (ranks : List (List M.Idx)) (i k : ℕ) : Prop :=
  ((ranks.take i).map List.length).sum ≤ k ∧ k < ((ranks.take i).map List.length).sum + (ranks.getD i []).length

theorem ravel_lengths {α : Type} (ranks : List (List M.Idx)) (f : M.Idx → α) :
    (M.ravel ranks f).map List.length = ranks.map List.length := by
  unfold Mesh.ravel
  rw [mpiSort_lengths, List.map_map]
  exact List.map_congr_left fun l _ => by simp

theorem getD_length {α β : Type} {a : List (List α)} {b : List (List β)} (h : a.map List.length = b.map List.length) (i : ℕ) :
    (a.getD i []).length = (b.getD i []).length := by
  have := congrArg (fun l : List ℕ => l.getD i 0) h
  simp only [List.getD_eq_getElem?_getD, List.getElem?_map] at this ⊢
  cases h1 : a[i]? <;> cases h2 : b[i]? <;> simp_all

theorem mem_chunks' {ranks : List (List M.Idx)} (hr : Decomposition M ranks) (f : M.Idx → ℝ) {chunk i : ℕ} {x : ℝ} :
    x ∈ chunks chunk (M.ravel ranks f) i ↔ ∃ j < total M, f (node M j) = x ∧ ∃ k, Draws M ranks i k ∧ j / chunk = k / chunk := by
  have hl := ravel_lengths M ranks f
  rw [mem_chunks, List.map_take, hl, getD_length hl, ravel_flatten M hr, ← List.map_take]
  constructor
  · rintro ⟨j, k, hj, h1, h2, h3⟩
    rw [List.getElem?_map, Option.map_eq_some_iff] at hj
    obtain ⟨j', hj', rfl⟩ := hj
    obtain ⟨hlt, rfl⟩ := List.getElem?_eq_some_iff.1 hj'
    rw [List.length_range] at hlt
    exact ⟨j, hlt, by simp, k, ⟨h1, h2⟩, h3⟩
  · rintro ⟨j, hj, rfl, k, ⟨h1, h2⟩, h3⟩
    exact ⟨j, k, by simp [hj], h1, h2, h3⟩

theorem draws_lt {ranks : List (List M.Idx)} (hr : Decomposition M ranks) {i k : ℕ} (h : Draws M ranks i k) : k < total M := by
  have h1 : ranks.flatten.length = total M := by
    have := (nodes_perm M hr).length_eq
    simpa using this
  have hi : i < ranks.length := by
    by_contra hn
    obtain ⟨h2, h3⟩ := h
    rw [List.getD_eq_getElem?_getD, List.getElem?_eq_none (by omega)] at h3
    simp only [Option.getD_none, List.length_nil, Nat.add_zero] at h3
    omega
  have e : ((ranks.take i).map List.length).sum + (ranks.getD i []).length + ((ranks.drop (i + 1)).map List.length).sum = total M := by
    have := congrArg (fun l => (l.map List.length).sum) (List.take_append_drop i ranks)
    rw [List.drop_eq_getElem_cons hi] at this
    simp only [List.map_append, List.sum_append, List.map_cons, List.sum_cons] at this
    rw [← h1, List.length_flatten, ← this, List.getD_eq_getElem?_getD, List.getElem?_eq_getElem hi, Option.getD_some, Nat.add_assoc]
  have := h.2
  omega

/-- C124 holds for Poisson sampling if means are not negative: all ranks return their part of the catalog (C123). -/
theorem C124_poisson_partial {G : List (Fin n)} {comm : C} (hc : members comm = G) (hG : G.Nodup) (hne : G ≠ []) (s : M.Fields)
    (hs : ∀ i, 0 ≤ M.cellMean s i) (pois : List ℝ → ℕ → ℕ) (u : ℕ → ℕ → Fin 3 → ℝ) (chunk : ℕ) (ranks : List (List M.Idx))
    (hr : Decomposition M ranks) (hl : ranks.length = G.length) :
    ∃ out, M.poissonRanks s ranks pois u = .ok out ∧
      Ends members G (fun i => poisson comm M s pois u chunk i (ranks.getD i [])) fun i => .ok (out.getD i []) := by
  have hneg : ¬ ∃ x ∈ (M.ravel ranks (M.cellMean s)).flatten, x < 0 := by
    rw [ravel_flatten M hr]
    rintro ⟨x, hx, h⟩
    rw [List.mem_map] at hx
    obtain ⟨j, -, rfl⟩ := hx
    exact absurd h (not_lt.2 (hs _))
  have hch : ∀ i, ¬ ∃ x ∈ chunks chunk (M.ravel ranks (M.cellMean s)) i, x < 0 := by
    rintro i ⟨x, hx, h⟩
    obtain ⟨j, -, hj, -⟩ := mem_chunks.1 hx
    exact hneg ⟨x, List.mem_of_getElem? hj, h⟩
  unfold Mesh.poissonRanks
  simp only [if_neg hneg]
  refine ⟨_, rfl, ?_⟩
  have hlam : (M.ravel ranks (M.cellMean s)).length = G.length := by
    have := congrArg List.length (ravel_lengths M ranks (M.cellMean s))
    simpa [hl] using this
  have hnum : (mpiDraw pois (M.ravel ranks (M.cellMean s))).length = G.length := by
    have := congrArg List.length (mpiDraw_lengths pois (M.ravel ranks (M.cellMean s)))
    simpa [hlam] using this
  have e1 : (List.range G.length).map (fun i => (mpiDraw pois (M.ravel ranks (M.cellMean s))).getD i []) =
      mpiDraw pois (M.ravel ranks (M.cellMean s)) := by
    rw [← hnum, range_map_getD]
  have e2 : ∀ cnt : M.Idx → ℕ, (List.range G.length).map (fun i => M.repeated cnt (ranks.getD i [])) = ranks.map (M.repeated cnt) := by
    intro cnt
    rw [← hl]
    conv_rhs => rw [← range_map_getD ranks [], List.map_map]
    rfl
  have h : Path members G (fun i => poisson comm M s pois u chunk i (ranks.getD i [])) (fun i => .ok ((List.zipWith (List.zipWith fun p v d =>
      p d + (0 + (M.cell d - 0) * v d) + (M.boxcenter d - M.boxsize d / 2))
      (mpiSort (ranks.map (M.repeated (M.unravel (mpiDraw pois (M.ravel ranks (M.cellMean s)))))))
      (mpiDraw (fun rows j => u rows.length j) (mpiSort (ranks.map (M.repeated (M.unravel (mpiDraw pois (M.ravel ranks (M.cellMean s))))))))).getD
        i [])) := by
    unfold poisson
    refine Path.call hc hG hne _ _ _ (Path.call hc hG hne _ _ _ (Path.call hc hG hne _ _ _ (Path.call hc hG hne _ _ _ ?_)))
    rw [ravel_ranks M s ranks hl]
    have hrv : mpiSort (ranks.map fun nodes => nodes.map fun k => (M.cellId k, M.cellMean s k)) = M.ravel ranks (M.cellMean s) := rfl
    simp only [hrv, if_neg (hch _)]
    refine Path.call hc hG hne _ _ _ (Path.call hc hG hne _ _ _ (Path.call hc hG hne _ _ _ (Path.call hc hG hne _ _ _ ?_)))
    rw [e1, e2]
    refine (Path.done _).congr (fun i hi => rfl) fun i hi => ?_
    congr 1
    have hp : (mpiSort (ranks.map (M.repeated (M.unravel (mpiDraw pois (M.ravel ranks (M.cellMean s))))))).length = G.length := by
      have := congrArg List.length (mpiSort_lengths (ranks.map (M.repeated (M.unravel (mpiDraw pois (M.ravel ranks (M.cellMean s)))))))
      simpa [hl] using this
    generalize mpiSort (ranks.map (M.repeated (M.unravel (mpiDraw pois (M.ravel ranks (M.cellMean s)))))) = P at hp
    have hq : (mpiDraw (fun rows j => u rows.length j) P).length = G.length := by
      have := congrArg List.length (mpiDraw_lengths (fun rows j => u rows.length j) P)
      simpa [hp] using this
    generalize mpiDraw (fun rows j => u rows.length j) P = Q at hq
    have h1 : i < P.length := by omega
    have h2 : i < Q.length := by omega
    simp only [List.getD_eq_getElem?_getD, List.getElem?_zipWith, List.getElem?_eq_getElem h1, List.getElem?_eq_getElem h2, Option.getD_some]
  exact h.ends

/-- C124 holds for Poisson sampling if a mean is negative, each rank has nodes and there are few enough of them to be in one chunk: all
ranks raise `ValueError`. -/
theorem C124_poisson_small_partial {G : List (Fin n)} {comm : C} (hc : members comm = G) (hG : G.Nodup) (hne : G ≠ []) (s : M.Fields)
    {i : M.Idx} (hi : M.cellMean s i < 0) (pois : List ℝ → ℕ → ℕ) (u : ℕ → ℕ → Fin 3 → ℝ) {chunk : ℕ} (ht : total M ≤ chunk)
    (ranks : List (List M.Idx)) (hr : Decomposition M ranks) (hl : ranks.length = G.length) (hn : ∀ nodes ∈ ranks, nodes ≠ []) :
    Ends members G (fun i => poisson comm M s pois u chunk i (ranks.getD i [])) fun _ => .error .valueError := by
  refine (poisson_leads M hc hG hne s pois u chunk ranks hl).path fun a ha => ?_
  refine if_pos ⟨M.cellMean s i, ?_, hi⟩
  have ha' : a < ranks.length := by omega
  have hd : Draws M ranks a ((ranks.take a).map List.length).sum := by
    refine ⟨le_rfl, Nat.lt_add_of_pos_right ?_⟩
    have : ranks.getD a [] ∈ ranks := by simp [ha']
    exact List.length_pos_of_ne_nil (hn _ this)
  refine (mem_chunks' M hr _).2 ⟨M.cellId i, cellId_lt M i, by rw [node_cellId], _, hd, ?_⟩
  rw [Nat.div_eq_of_lt ((cellId_lt M i).trans_le ht), Nat.div_eq_of_lt ((draws_lt M hr hd).trans_le ht)]

/-- C124 fails for Poisson sampling: if the mean is negative in a cell and rank `a` draws in the same chunk, rank `a` raises `ValueError`;
a rank `b` that draws in chunks without negative means waits for it for ever. -/
theorem C124_poisson_violated {G : List (Fin n)} {comm : C} (hc : members comm = G) (hG : G.Nodup) (f : M.Fields)
    (pois : List ℝ → ℕ → ℕ) (u : ℕ → ℕ → Fin 3 → ℝ) (chunk : ℕ) (ranks : List (List M.Idx)) (hr : Decomposition M ranks)
    (hl : ranks.length = G.length) {a b : ℕ} (ha : a < G.length) (hb : b < G.length)
    (hna : ∃ j < total M, M.cellMean f (node M j) < 0 ∧ ∃ k, Draws M ranks a k ∧ j / chunk = k / chunk)
    (hnb : ∀ j < total M, ∀ k, Draws M ranks b k → j / chunk = k / chunk → 0 ≤ M.cellMean f (node M j))
    (s : Machine C (List (Fin 3 → ℝ)) n) (hs : Runs G (fun i => poisson comm M f pois u chunk i (ranks.getD i [])) s) :
    RankEnds members s G[a] (.error .valueError) ∧ Never members s G[b] := by
  have hne : G ≠ [] := List.ne_nil_of_length_pos (by omega)
  refine (poisson_leads M hc hG hne f pois u chunk ranks hl).hangs hc ha hb (if_pos ?_) ⟨_, _, _, _, if_neg ?_⟩ hs
  · obtain ⟨j, hj, hneg, hk⟩ := hna
    exact ⟨_, (mem_chunks' M hr _).2 ⟨j, hj, rfl, hk⟩, hneg⟩
  · rintro ⟨x, hx, hneg⟩
    obtain ⟨j, hj, rfl, k, hk, he⟩ := (mem_chunks' M hr _).1 hx
    exact absurd hneg (not_lt.2 (hnb j hj k hk he))

end poisson

/-! ### Quantities of bricks -/

section bricks
open Verif.Model.Bricks Verif.Model.Fiber Verif.Props.Bricks

theorem objectsFrom_lengths (k : ℕ) (coords : List (List (ℝ × ℝ))) :
    (Spec.Bricks.objectsFrom k coords).map List.length = coords.map List.length := by
  induction coords generalizing k with
  | nil => rfl
  | cons l ls ih => simp [Spec.Bricks.objectsFrom, ih]

/-- Ranks that are given objects `coords`, once the rows are sorted by bricks. -/
theorem bricks_leads {G : List (Fin n)} {comm : C} (hc : members comm = G) (hG : G.Nodup) (hne : G ≠ []) (sv : Survey)
    (sched : List (List Bricks.Row) → List (List Bricks.Row)) {columns : List Column} (hcol : columns ≠ []) (coords : List (List (ℝ × ℝ)))
    (hl : coords.length = G.length) (hco : coords.flatten ≠ []) :
    Leads members G (fun i => bricks comm comm sv sched columns i (coords.getD i [])) fun i =>
      match oneRank sv columns ((sched (makeRows sv coords)).getD i []) with
      | .error e => .done (.error e)
      | .ok data =>
        .call comm .allgather (if (sched (makeRows sv coords)).getD i [] = [] then none else some (header data)) fun headers =>
          bricksBack comm (makeRows sv coords) ((sched (makeRows sv coords)).getD i []) data i headers := by
  have e : (List.range G.length).map (fun i => coords.getD i []) = coords := by rw [← hl, range_map_getD]
  have e' : ((List.range G.length).map fun i => (coords.getD i []).length).sum ≠ 0 := by
    rw [← Function.comp_def List.length, ← List.map_map, e, ← List.length_flatten]
    exact fun h => hco (List.length_eq_zero_iff.1 h)
  unfold bricks
  simp only [if_neg hcol]
  refine Leads.call hc hG hne _ _ _ ?_
  simp only [if_neg e']
  refine Leads.call hc hG hne _ _ _ (Leads.call hc hG hne _ _ _ (Leads.call hc hG hne _ _ _ ?_))
  rw [e]
  exact Leads.refl _ _

/-- C124 fails for quantities of bricks: if there are more ranks than objects, a column that is not known raises `ValueError` on some
rank, and there is a rank, without objects, that waits for ever. -/
theorem C124_bricks_violated {G : List (Fin n)} {comm : C} (hc : members comm = G) (hG : G.Nodup) (sv : Survey)
    {sched : List (List Bricks.Row) → List (List Bricks.Row)} (hsched : ∀ sub, Csort Bricks.Row.brickid sub (sched sub))
    {columns : List Column} {name : String} (hm : .plain name ∈ columns)
    (hu : name.toLower ∉ ["photsys", "ra", "dec", "brickname", "brickid", "index"]) (coords : List (List (ℝ × ℝ)))
    (hl : coords.length = G.length) (hco : coords.flatten ≠ []) (hmore : coords.flatten.length < G.length)
    (s : Machine C (List (String × Arr)) n)
    (hs : Runs G (fun i => bricks comm comm sv sched columns i (coords.getD i [])) s) :
    ∃ a ∈ G, ∃ b ∈ G, (∃ e, RankEnds members s a (.error e)) ∧ Never members s b := by
  have hne : G ≠ [] := List.ne_nil_of_length_pos (by omega)
  have hcs := hsched (makeRows sv coords)
  have hlen : (makeRows sv coords).flatten.length = coords.flatten.length := by
    rw [makeRows_eq, ← List.map_flatten, List.length_map]
    rw [List.length_flatten, objectsFrom_lengths, List.length_flatten]
  have hml : (sched (makeRows sv coords)).length = G.length := by
    rw [hcs.ranks, makeRows_eq, List.length_map, ← hl]
    simpa using congrArg List.length (objectsFrom_lengths 0 coords)
  have hfl : (sched (makeRows sv coords)).flatten.length = coords.flatten.length := by rw [hcs.rows.length_eq, hlen]
  have hcol : columns ≠ [] := List.ne_nil_of_mem hm
  have h := bricks_leads hc hG hne sv sched hcol coords hl hco
  generalize hM : sched (makeRows sv coords) = moved at h hml hfl
  obtain ⟨rows, hrows, hr⟩ : ∃ rows ∈ moved, rows ≠ [] := by
    by_contra hn
    push Not at hn
    have : moved.flatten = [] := List.flatten_eq_nil_iff.2 hn
    rw [this] at hfl
    exact hco (List.length_eq_zero_iff.1 hfl.symm)
  obtain ⟨a, ha, rfl⟩ := List.getElem_of_mem hrows
  have hb : ∃ b, ∃ hb : b < moved.length, moved[b] = [] := by
    by_contra hn
    push Not at hn
    have : moved.length ≤ moved.flatten.length := by
      rw [List.length_flatten]
      calc moved.length = (moved.map fun _ => 1).sum := by simp
        _ ≤ (moved.map List.length).sum := List.sum_le_sum fun l hl => by
          obtain ⟨b, hb, rfl⟩ := List.getElem_of_mem hl
          exact List.length_pos_of_ne_nil (hn b hb)
    omega
  obtain ⟨b, hb, hb0⟩ := hb
  obtain ⟨e, he⟩ : ∃ e, oneRank sv columns moved[a] = .error e := by
    cases h1 : oneRank sv columns moved[a] with
    | error e => exact ⟨e, rfl⟩
    | ok res =>
      refine absurd h1 (oneRank_rejects hm ?_ hr res)
      intro b g sub tmp res h
      simp only [List.mem_cons, List.not_mem_nil, or_false, not_or] at hu
      simp [column, known, hu] at h
  have e0 : oneRank sv columns [] = .ok [] := by
    simp [oneRank, uniqueNames]
    rfl
  have ea : moved.getD a [] = moved[a] := by simp [ha]
  have eb : moved.getD b [] = [] := by simp [hb, hb0]
  obtain ⟨h1, h2⟩ := h.hangs hc (a := a) (b := b) (by omega) (by omega) (e := e) (by simp only [ea, he])
    ⟨_, _, _, _, by simp only [eb, e0]; rfl⟩ hs
  exact ⟨_, List.getElem_mem _, _, List.getElem_mem _, ⟨e, h1⟩, h2⟩

/-- C124 holds for quantities of bricks that can be read on all ranks: all ranks return, with the result of C55. -/
theorem C124_bricks_partial {G : List (Fin n)} {comm : C} (hc : members comm = G) (hG : G.Nodup) (hne : G ≠ []) (sv : Survey)
    {sched : List (List Bricks.Row) → List (List Bricks.Row)} (hsched : ∀ sub, Csort Bricks.Row.brickid sub (sched sub))
    (columns : List Column) (coords : List (List (ℝ × ℝ))) (hl : coords.length = G.length) {out : List (List (String × Arr))}
    (hout : getBrickPixelQuantities sv sched columns coords = .ok out) :
    Ends members G (fun i => bricks comm comm sv sched columns i (coords.getD i [])) fun i => .ok (out.getD i []) := by
  have e : (List.range G.length).map (fun i => coords.getD i []) = coords := by rw [← hl, range_map_getD]
  unfold getBrickPixelQuantities at hout
  by_cases hcol : columns = []
  · rw [if_pos hcol, Except.ok.injEq] at hout
    refine (Leads.refl G _).path fun i hi => ?_
    unfold bricks
    rw [if_pos hcol, ← hout]
    congr 2
    simp [List.getD_eq_getElem?_getD, hl, hi]
  rw [if_neg hcol] at hout
  by_cases hco : coords.flatten = []
  · rw [if_pos hco, Except.ok.injEq] at hout
    have e' : ((List.range G.length).map fun i => (coords.getD i []).length).sum = 0 := by
      rw [← Function.comp_def List.length, ← List.map_map, e, ← List.length_flatten, hco]
      rfl
    have h : Leads members G (fun i => bricks comm comm sv sched columns i (coords.getD i [])) (fun _ => .done (.ok [])) := by
      unfold bricks
      simp only [if_neg hcol]
      refine Leads.call hc hG hne _ _ _ ?_
      simp only [if_pos e']
      exact Leads.refl _ _
    refine h.path fun i hi => ?_
    rw [← hout]
    congr 2
    simp [List.getD_eq_getElem?_getD, hl, hi]
  rw [if_neg hco] at hout
  simp only at hout
  obtain ⟨data, hdata, hout⟩ := Lemmas.Bricks.bind_ok hout
  have hml : (sched (makeRows sv coords)).length = G.length := by
    rw [(hsched _).ranks, makeRows_eq, List.length_map, ← hl]
    simpa using congrArg List.length (objectsFrom_lengths 0 coords)
  have hfor := Lemmas.Fiber.mapM_forall₂ hdata
  have hdl : data.length = G.length := by rw [← hfor.length_eq, hml]
  generalize hM : sched (makeRows sv coords) = moved at hout hml hfor
  have h := bricks_leads hc hG hne sv sched hcol coords hl hco
  rw [hM] at h
  have hone : ∀ i < G.length, oneRank sv columns (moved.getD i []) = .ok (data.getD i []) := fun i hi => by
    have h1 : i < moved.length := by omega
    have h2 : i < data.length := by omega
    have := (List.forall₂_iff_get.1 hfor).2 i h1 h2
    simpa [h1, h2] using this
  have zip : ∀ {γ : Type} (f : List Bricks.Row → List (String × Arr) → γ),
      (List.range G.length).map (fun i => f (moved.getD i []) (data.getD i [])) = List.zipWith f moved data := by
    intro γ f
    apply List.ext_getElem
    · simp [hml, hdl]
    · intro i h1 h2
      simp only [List.length_map, List.length_range] at h1
      have h1' : i < moved.length := by omega
      have h2' : i < data.length := by omega
      simp [h1', h2']
  have hhead : ((List.range G.length).map fun i => if moved.getD i [] = [] then none else some (header (data.getD i []))).filterMap id =
      (moved.zip data).filterMap fun x => if x.1 = [] then none else some (header x.2) := by
    rw [zip fun m d => if m = [] then none else some (header d), ← List.map_uncurry_zip_eq_zipWith, List.filterMap_map]
    rfl
  have hA : Leads members G (fun i => Prog.call comm .allgather (if moved.getD i [] = [] then none else some (header (data.getD i [])))
      fun headers => bricksBack comm (makeRows sv coords) (moved.getD i []) (data.getD i []) i headers) _ :=
    Leads.call hc hG hne _ _ _ (Leads.refl _ _)
  split at hout
  · next hnil =>
    rw [Except.ok.injEq] at hout
    refine (h.trans (hA.congr fun i hi => by simp only [hone i hi])).path fun i hi => ?_
    unfold bricksBack
    simp only [hhead, hnil]
    rw [← hout]
    congr 2
    simp [List.getD_eq_getElem?_getD, hl, hi]
  · next h0 hs hcons =>
    split at hout
    · cases hout
    next hany =>
    split at hout
    swap
    · cases hout
    next hidx =>
    rw [Except.ok.injEq] at hout
    have hB : Leads members G (fun i => Prog.call comm (.other "csort") (indexed (moved.getD i []) (data.getD i [])) fun rows =>
        let back := (Blinding.splitSizes ((makeRows sv coords).map List.length)
          (rows.flatten.mergeSort fun a b => decide (a.1 ≤ b.1))).getD i []
        if back.map Prod.fst = ((makeRows sv coords).getD i []).map Bricks.Row.index then .done (.ok (toColumns h0 back))
        else .done (.error .assertionError)) _ := Leads.call hc hG hne _ _ _ (Leads.refl _ _)
    refine (h.trans ((hA.trans (hB.congr fun i hi => ?_)).congr fun i hi => by simp only [hone i hi])).path fun i hi => ?_
    · unfold bricksBack
      simp only [hhead, hcons, if_neg hany]
    rw [zip indexed]
    simp only
    have hsub : (makeRows sv coords).length = G.length := by rw [← (hsched _).ranks, hM, hml]
    generalize Blinding.splitSizes ((makeRows sv coords).map List.length)
      ((List.zipWith indexed moved data).flatten.mergeSort fun a b => decide (a.1 ≤ b.1)) = back at hidx hout
    have hbl : back.length = G.length := by
      have := congrArg List.length hidx
      simpa [hsub] using this
    have e1 : (back.getD i []).map Prod.fst = ((makeRows sv coords).getD i []).map Bricks.Row.index := by
      have := congrArg (fun l => l.getD i []) hidx
      simp only [List.getD_eq_getElem?_getD, List.getElem?_map] at this ⊢
      rw [List.getElem?_eq_getElem (by omega), List.getElem?_eq_getElem (by omega)] at this ⊢
      simpa using this
    rw [if_pos e1, ← hout]
    congr 2
    have : i < back.length := by omega
    simp [this]

/-- C122 fails for quantities of bricks: ranks of the communicator wait for ever for a rank of the current communicator that does nothing
of the kind. -/
theorem C122_bricks_violated {G : List (Fin n)} {comm : C} (hc : members comm = G) (hG : G.Nodup) (current : C) (sv : Survey)
    (sched : List (List Bricks.Row) → List (List Bricks.Row)) {columns : List Column} (hcol : columns ≠ []) (place : ℕ → ℕ)
    (coords : List (List (ℝ × ℝ))) (hl : coords.length = G.length) (hco : coords.flatten ≠ []) {q : Fin n} (hq : q ∈ members current)
    (s : Machine C (List (String × Arr)) n)
    (hs : Runs G (fun i => bricks current comm sv sched columns (place i) (coords.getD i [])) s) (ha : Avoids current (s q)) :
    ∀ r ∈ G, Never members s r := by
  intro r hr
  obtain ⟨b, hb, rfl⟩ := List.getElem_of_mem hr
  have hne : G ≠ [] := List.ne_nil_of_length_pos (by omega)
  have e : (List.range G.length).map (fun i => coords.getD i []) = coords := by rw [← hl, range_map_getD]
  have e' : ((List.range G.length).map fun i => (coords.getD i []).length).sum ≠ 0 := by
    rw [← Function.comp_def List.length, ← List.map_map, e, ← List.length_flatten]
    exact fun h => hco (List.length_eq_zero_iff.1 h)
  unfold bricks at hs
  simp only [if_neg hcol] at hs
  exact (Leads.call hc hG hne _ _ _ (Leads.refl _ _)).never hb (if_neg e') hs hq fun t ht _ => avoids_reach ht ha

end bricks

/-! ### Non-vacuity -/

/-- The programs of two ranks. -/
def both {α : Type} (p : ℕ → Prog (Option (Fin 2)) α) : Machine (Option (Fin 2)) α 2 := fun r => p r.val

theorem both_runs {α : Type} (p : ℕ → Prog (Option (Fin 2)) α) : Runs [0, 1] p (both p) := by
  intro i hi
  match i, hi with
  | 0, _ => rfl
  | 1, _ => rfl
  | i + 2, hi => exact absurd hi (by simp)

/-- Non-vacuity: Healpix mask, rank 0 has a declination that is not a number, rank 1 waits for ever. -/
example (pix : ℝ → ℝ → ℕ) (u : ℕ → ℕ → ℝ) :
    RankEnds two (both fun i => Mpi.maskCall none (healpixRows [1] none none pix) u i ([[(0, none)], [(10, some 20)]].getD i [])) 0
      (.error .valueError) ∧
    Never two (both fun i => Mpi.maskCall none (healpixRows [1] none none pix) u i ([[(0, none)], [(10, some 20)]].getD i [])) 1 :=
  C124_healpix_violated (members := two) (G := [0, 1]) (comm := none) rfl [1] none none pix u [[(0, none)], [(10, some 20)]] (a := 0) (b := 1)
    (by simp) (by simp) ⟨(0, none), by simp, fun dec h => by simp at h⟩
    (fun r hr => ⟨20, by simp at hr; simp [hr], by norm_num, by norm_num⟩) _ (both_runs _)

/-- Non-vacuity: an object on two ranks and an unknown column. -/
example (coords : ℝ × ℝ) : ∃ a ∈ [0, 1], ∃ b ∈ [0, 1],
    (∃ e, RankEnds two (both fun i => bricks none none demoSurvey (toFirst Bricks.Row.brickid) [.plain "flux"] i ([[coords], []].getD i []))
      a (.error e)) ∧
    Never two (both fun i => bricks none none demoSurvey (toFirst Bricks.Row.brickid) [.plain "flux"] i ([[coords], []].getD i [])) b :=
  C124_bricks_violated (members := two) (G := [0, 1]) (comm := none) rfl (by decide) demoSurvey (fun _ => csort_toFirst _ _)
    (columns := [.plain "flux"]) (name := "flux") (by simp) (by rw [lower_eq (t := "flux") (by decide)]; decide) [[coords], []] rfl (by simp) (by simp) _
    (both_runs _)

/-- Non-vacuity: 64 nodes on two ranks, by chunks of 32; the density contrast is -2 at the first node. -/
example (pois : List ℝ → ℕ → ℕ) (u : ℕ → ℕ → Fin 3 → ℝ) : ∃ (f : mesh4.Fields) (ranks : List (List mesh4.Idx)),
    RankEnds two (both fun i => poisson none mesh4 f pois u 32 i (ranks.getD i [])) 0 (.error .valueError) ∧
    Never two (both fun i => poisson none mesh4 f pois u 32 i (ranks.getD i [])) 1 := by
  have ht : PoissonRanks.total mesh4 = 64 := rfl
  have hd : Decomposition mesh4 [(List.range 32).map (PoissonRanks.node mesh4), (List.range' 32 32).map (PoissonRanks.node mesh4)] := by
    have h0 : Decomposition mesh4 [(Finset.univ : Finset mesh4.Idx).toList] := by unfold Decomposition; simp
    have h1 := PoissonRanks.nodes_perm mesh4 h0
    unfold Decomposition
    refine List.Perm.trans (List.Perm.of_eq ?_) (h1.symm.trans h0)
    rw [ht]
    simp only [List.flatten_cons, List.flatten_nil, List.append_nil, ← List.map_append]
    congr 1
  have hcell : mesh4.dv = 8 := by
    unfold Mesh.dv Mesh.cell
    simp [mesh4]
    norm_num
  refine ⟨⟨fun i => if i = PoissonRanks.node mesh4 0 then -2 else 0, .inl 1, fun _ _ => 0⟩, _,
    C124_poisson_violated mesh4 (members := two) (G := [0, 1]) (comm := none) rfl (by decide) _ pois u 32 _ hd rfl (a := 0) (b := 1)
      (by simp) (by simp) ⟨0, by rw [ht]; norm_num, ?_, 0, ⟨by simp, by simp⟩, rfl⟩ ?_ _ (both_runs _)⟩
  · unfold Mesh.cellMean Mesh.Fields.nbarAt
    rw [hcell]
    norm_num
  · rintro j hj k ⟨hk, -⟩ hjk
    rw [ht] at hj
    have h32 : 32 ≤ k := by simpa using hk
    have hne : PoissonRanks.node mesh4 j ≠ PoissonRanks.node mesh4 0 := fun h => by
      have := congrArg mesh4.cellId h
      rw [PoissonRanks.cellId_node mesh4 (by rw [ht]; exact hj), PoissonRanks.cellId_node mesh4 (by rw [ht]; norm_num)] at this
      omega
    unfold Mesh.cellMean Mesh.Fields.nbarAt
    rw [hcell]
    simp only [if_neg hne]
    norm_num

end Verif.Props.RankErrors
