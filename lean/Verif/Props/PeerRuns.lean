/-
C79 for the whole vector OLE: one party, in its precomputation and any number of runs after it, in front of any peer.
-/
import Verif.Proofs.PeerVOLE

namespace DVO
variable {T : Type} [Scalar T]

/-- Whatever stream of messages is there to be received, a program gets to its end after receiving some of them. -/
theorem Reads.stream {M α : Type} (p : Proc M α) : ∀ f : Nat → M, ∃ k a, Reads p ((List.range k).map f) a := by
  induction p with
  | ret a => exact fun _ => ⟨0, a, .ret a⟩
  | send ch m k ih => exact fun f => let ⟨n, a, h⟩ := ih f; ⟨n, a, .send _ _ _ _ _ h⟩
  | recv ch k ih =>
    intro f
    obtain ⟨n, a, h⟩ := ih (f 0) (fun i => f (i + 1))
    refine ⟨n + 1, a, ?_⟩
    rw [List.range_succ_eq_map, List.map_cons, List.map_map]
    exact .recv _ _ _ _ _ h
  | otSend ch kd ms k ih => exact fun f => let ⟨n, a, h⟩ := ih f; ⟨n, a, .otSend _ _ _ _ _ _ h⟩
  | otRecv ch kd cs k ih =>
    exact fun f => let ⟨n, a, h⟩ := ih (List.replicate cs.length 0) f; ⟨n, a, .otRecv _ _ _ _ _ _ _ (by simp) h⟩

namespace VOLE

omit [Scalar T] in
/-- There are parties it could work with. -/
theorem Alone.together {h : Cuckoo.Hasher} {A : Env T} (W : Alone h A) : Together h A { A with lower := !A.lower } :=
  ⟨rfl, rfl, rfl, rfl, rfl, rfl, W.threads, W.threads, W.order, W.order, W.conforms, W.numHash, W.buckets_pos, W.buckets_lt, W.trees⟩

omit [Scalar T] in
theorem Together.alone {h : Cuckoo.Hasher} {A B : Env T} (W : Together h A B) : Alone h A :=
  ⟨W.threadsA, W.orderA, W.conforms, W.numHash, W.buckets_pos, W.buckets_lt, W.trees⟩

/-- C79, the receiver of a vector OLE: it precomputes and then asks for vectors of any sizes, and whatever the peer sends and
    whatever the oblivious transfers return, there is no undefined behaviour. Partial: each vector received is supposed to have
    the length the receiver expects, which the code does not check; with any other length it is false (C79_vole_negation). -/
theorem C79_vole_receiver_partial [LawfulScalar T] {h : Cuckoo.Hasher} {A : Env T} (W : Alone h A) {b : Int} (hb : b < 2 ^ 62)
    (d : T) {r : VState T} (hr : MPFSS.Coherent h r.mpfss) {ns : List Int} (hn : ∀ n ∈ ns, 0 ≤ n) {l : List (Msg T)}
    {o : Out (List (RRes T))} {r' : VState T} (hl : Reads ((precomputeReceiver A b d >>= fun _ => receives A ns) r) l (o, r'))
    (hm : ∀ k, MeetsAll (receiverWants h b A.lower ++ receiverMore h b k) l) : o.NoUB := by
  refine (Safe.bind (precomputeReceiver_safe W.together hb hr) (Q' := fun _ _ _ => True) ?_ l o r' hl (hm (A.fuel * ns.length))).1
  rintro - r1 rs1 ⟨rfl, t, v, c, hc, H⟩
  unfold receiverMore
  rw [hc]
  exact receives_safe W.together ns hn H (Nat.le_refl _)

/-- C79, the sender of a vector OLE. Partial: each vector received is supposed to have at least one element per bucket, which the
    code does not check; with an empty vector it is false (C79_vole_sender_negation). -/
theorem C79_vole_sender_partial [LawfulScalar T] {h : Cuckoo.Hasher} {A : Env T} (W : Alone h A) {b : Int} (hb : b < 2 ^ 62)
    {s : VState T} (hs : MPFSS.Coherent h s.mpfss) {ns : List Int} (hn : ∀ n ∈ ns, 0 ≤ n) {l : List (Msg T)}
    {o : Out (List (SRes T))} {s' : VState T} (hl : Reads ((precomputeSender A b >>= fun _ => sends A ns) s) l (o, s'))
    (hm : ∀ k, MeetsAll (senderWants h b A.lower ++ senderMore h b k) l) : o.NoUB := by
  refine (Safe.bind (precomputeSender_safe W.together hb hs) (Q' := fun _ _ _ => True) ?_ l o s' hl (hm (A.fuel * ns.length))).1
  rintro - s1 rs1 ⟨rfl, t, v, c, hc, H⟩
  unfold senderMore
  rw [hc]
  exact sends_safe W.together ns hn H (Nat.le_refl _)

/-- C79, a receiver that has not made a precomputation: its first run makes one. Partial as above. -/
theorem C79_vole_new_receiver_partial [LawfulScalar T] {h : Cuckoo.Hasher} {A : Env T} (W : Alone h A) {n : Int} (h0 : 0 ≤ n)
    (h1 : n < 2 ^ 62) {ns : List Int} (hn : ∀ n ∈ ns, 0 ≤ n) {r : VState T} (hr : MPFSS.Coherent h r.mpfss) (hd : r.rDone = false)
    {l : List (Msg T)} {o : Out (List (RRes T))} {r' : VState T} (hl : Reads (receives A (n :: ns) r) l (o, r'))
    (hm : ∀ k, MeetsAll (receiverWants h n A.lower ++ receiverMore h n k) l) : o.NoUB :=
  (receives_new_safe W.together h0 h1 hn hr hd (Nat.le_refl _) l o r' hl (hm _)).1

/-- The same for the sender. -/
theorem C79_vole_new_sender_partial [LawfulScalar T] {h : Cuckoo.Hasher} {A : Env T} (W : Alone h A) {n : Int} (h0 : 0 ≤ n)
    (h1 : n < 2 ^ 62) {ns : List Int} (hn : ∀ n ∈ ns, 0 ≤ n) {s : VState T} (hs : MPFSS.Coherent h s.mpfss) (hd : s.sDone = false)
    {l : List (Msg T)} {o : Out (List (SRes T))} {s' : VState T} (hl : Reads (sends A (n :: ns) s) l (o, s'))
    (hm : ∀ k, MeetsAll (senderWants h n A.lower ++ senderMore h n k) l) : o.NoUB :=
  (sends_new_safe W.together h0 h1 hn hs hd (Nat.le_refl _) l o s' hl (hm _)).1

/-! The hypotheses hold of a peer that sends what is wanted, up to a point, and then closes the connection. -/

/-- A message as wanted. -/
def Want.message : Want → Msg (BitVec 64)
  | .seed => .bytes []
  | .keys => .blocks [1, 2]
  | .exactly n => .elems (List.replicate n 7)
  | .atLeast n => .elems (List.replicate (n + 1) 7)
  | .token => .token
  | .block => .blocks [5]

theorem Want.message_meets : ∀ w : Want, Meets w w.message
  | .seed => trivial
  | .keys => rfl
  | .exactly n => List.length_replicate
  | .atLeast n => by show n ≤ (List.replicate (n + 1) _).length; simp
  | .token => trivial
  | .block => rfl

/-- Messages as wanted by `ws`; then the connection is closed. -/
def answers (ws : List Want) (i : Nat) : Msg (BitVec 64) := (ws[i]?.map Want.message).getD .closed

theorem answers_meet (ws more : List Want) (k : Nat) (hp : ∃ x, ws ++ x = more ∨ more ++ x = ws) :
    MeetsAll more ((List.range k).map (answers ws)) := by
  intro i w m h1 h2
  rw [List.getElem?_map, Option.map_eq_some_iff] at h2
  obtain ⟨j, hj, rfl⟩ := h2
  have hj' : j = i := by
    rw [List.getElem?_eq_some_iff] at hj
    obtain ⟨_, hj⟩ := hj
    simpa using hj.symm
  subst hj'
  unfold answers
  cases e : ws[j]? with
  | none => cases w <;> trivial
  | some w' =>
    have : w' = w := by
      obtain ⟨x, rfl | rfl⟩ := hp
      · rw [List.getElem?_append_left (List.getElem?_eq_some_iff.1 e).1, e] at h1
        exact Option.some.inj h1
      · rw [List.getElem?_append_left (List.getElem?_eq_some_iff.1 h1).1, h1] at e
        exact (Option.some.inj e).symm
    subst this
    exact Want.message_meets w'

theorem flatten_replicate_prefix {α : Type} (x : List α) (a b : Nat) :
    ∃ y, (List.replicate a x).flatten ++ y = (List.replicate b x).flatten ∨ (List.replicate b x).flatten ++ y = (List.replicate a x).flatten := by
  rcases Nat.le_total a b with h | h
  · obtain ⟨c, rfl⟩ := Nat.exists_eq_add_of_le h
    exact ⟨(List.replicate c x).flatten, .inl (by rw [List.replicate_add, List.flatten_append])⟩
  · obtain ⟨c, rfl⟩ := Nat.exists_eq_add_of_le h
    exact ⟨(List.replicate c x).flatten, .inr (by rw [List.replicate_add, List.flatten_append])⟩

/-- What the parties of the examples want: for a batch of 3000 one expansion is needed, for one of 50000 two. -/
example : receiverWants toyHasher 3000 exB.lower = [.exactly 3589, .seed, .exactly 2000, .seed] ∧
    receiverWants toyHasher 50000 exA.lower = [.exactly 3589, .exactly 2000, .exactly 2000] := ⟨rfl, rfl⟩
example : senderWants toyHasher 3000 exB.lower = [.seed, .keys, .atLeast 2000, .seed] ∧
    senderWants toyHasher 50000 exA.lower = [.keys, .atLeast 2000, .keys, .atLeast 2000] ∧
    senderMore toyHasher 3000 2 = [.keys, .atLeast 2000, .keys, .atLeast 2000] := ⟨rfl, rfl, rfl⟩

/-- A new receiver, not the party that chooses the seeds, asks for vectors of several sizes, the second one larger than a batch;
    its peer sends vectors of sevens, of the right lengths, until two expansions have been made. -/
example : ∃ l o r', Reads ((precomputeReceiver exB 3000 5 >>= fun _ => receives exB [10, 200000, 0, 100000000]) (created toyHasher 0)) l (o, r') ∧
    (∀ k, MeetsAll (receiverWants toyHasher 3000 exB.lower ++ receiverMore toyHasher 3000 k) l) ∧ o.NoUB := by
  let ws := receiverWants toyHasher 3000 exB.lower ++ receiverMore toyHasher 3000 2
  obtain ⟨k, ⟨o, r'⟩, hl⟩ := Reads.stream ((precomputeReceiver exB 3000 5 >>= fun _ => receives exB [10, 200000, 0, 100000000]) (created toyHasher 0)) (answers ws)
  have hm : ∀ k', MeetsAll (receiverWants toyHasher 3000 exB.lower ++ receiverMore toyHasher 3000 k') ((List.range k).map (answers ws)) := by
    intro k'
    refine answers_meet _ _ _ ?_
    obtain ⟨y, hy | hy⟩ := flatten_replicate_prefix [Want.exactly (lastBuckets toyHasher 3000)] 2 k'
    · exact ⟨y, .inl (by simp only [ws, receiverMore]; rw [List.append_assoc, hy])⟩
    · exact ⟨y, .inr (by simp only [ws, receiverMore]; rw [List.append_assoc, hy])⟩
  exact ⟨_, o, r', hl, hm, C79_vole_receiver_partial ex_together.swap.alone (by omega) 5 (MPFSS.Coherent.new toyHasher) (by simp) hl hm⟩

/-- The same for a sender. -/
example : ∃ l o s', Reads ((precomputeSender exB 3000 >>= fun _ => sends exB [10, 200000, 0, 100000000]) (created toyHasher 0)) l (o, s') ∧
    (∀ k, MeetsAll (senderWants toyHasher 3000 exB.lower ++ senderMore toyHasher 3000 k) l) ∧ o.NoUB := by
  let ws := senderWants toyHasher 3000 exB.lower ++ senderMore toyHasher 3000 2
  obtain ⟨k, ⟨o, s'⟩, hl⟩ := Reads.stream ((precomputeSender exB 3000 >>= fun _ => sends exB [10, 200000, 0, 100000000]) (created toyHasher 0)) (answers ws)
  have hm : ∀ k', MeetsAll (senderWants toyHasher 3000 exB.lower ++ senderMore toyHasher 3000 k') ((List.range k).map (answers ws)) := by
    intro k'
    refine answers_meet _ _ _ ?_
    obtain ⟨y, hy | hy⟩ := flatten_replicate_prefix [Want.keys, Want.atLeast (lastBuckets toyHasher 3000)] 2 k'
    · exact ⟨y, .inl (by simp only [ws, senderMore]; rw [List.append_assoc, hy])⟩
    · exact ⟨y, .inr (by simp only [ws, senderMore]; rw [List.append_assoc, hy])⟩
  exact ⟨_, o, s', hl, hm, C79_vole_sender_partial ex_together.swap.alone (by omega) (MPFSS.Coherent.new toyHasher) (by simp) hl hm⟩

/-- New objects that make runs at once; the peer sends what is wanted in the first one and then closes the connection. -/
example : (∃ l o r', Reads (receives exB [200000, 10, 100000000] (created toyHasher 0)) l (o, r') ∧
      (∀ k, MeetsAll (receiverWants toyHasher 200000 exB.lower ++ receiverMore toyHasher 200000 k) l) ∧ o.NoUB) ∧
    ∃ l o s', Reads (sends exA [200000, 10, 100000000] (created toyHasher 0)) l (o, s') ∧
      (∀ k, MeetsAll (senderWants toyHasher 200000 exA.lower ++ senderMore toyHasher 200000 k) l) ∧ o.NoUB := by
  constructor
  · obtain ⟨k, ⟨o, r'⟩, hl⟩ := Reads.stream (receives exB [200000, 10, 100000000] (created toyHasher 0)) (answers (receiverWants toyHasher 200000 exB.lower))
    have hm : ∀ k', MeetsAll (receiverWants toyHasher 200000 exB.lower ++ receiverMore toyHasher 200000 k') _ :=
      fun k' => answers_meet (receiverWants toyHasher 200000 exB.lower) _ k ⟨_, .inl rfl⟩
    exact ⟨_, o, r', hl, hm, C79_vole_new_receiver_partial ex_together.swap.alone (by omega) (by omega) (by simp) (MPFSS.Coherent.new toyHasher) rfl hl hm⟩
  · obtain ⟨k, ⟨o, s'⟩, hl⟩ := Reads.stream (sends exA [200000, 10, 100000000] (created toyHasher 0)) (answers (senderWants toyHasher 200000 exA.lower))
    have hm : ∀ k', MeetsAll (senderWants toyHasher 200000 exA.lower ++ senderMore toyHasher 200000 k') _ :=
      fun k' => answers_meet (senderWants toyHasher 200000 exA.lower) _ k ⟨_, .inl rfl⟩
    exact ⟨_, o, s', hl, hm, C79_vole_new_sender_partial ex_together.alone (by omega) (by omega) (by simp) (MPFSS.Coherent.new toyHasher) rfl hl hm⟩

end VOLE
end DVO
