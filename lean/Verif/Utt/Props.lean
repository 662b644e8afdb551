import Verif.Utt.Lemmas
set_option autoImplicit false
namespace Eus.Utt
open Spec

/-! ## C196: unit test reports -/

/-- Every string is escaped without a store outside the buffer; the result has no < and no >, and an
XML reader gets back the string, with ^ for ESC. -/
theorem C196_escape (s : List Nat) :
    ∃ r, escape s = some r ∧ 60 ∉ r ∧ 62 ∉ r ∧ unescape r = shown s :=
  ⟨xml s, escape_eq s, (xml_plain s).1, (xml_plain s).2.1, unescape_xml s⟩

example : escape (chars "a<&>b") = some (chars "a&lt;&amp;&gt;b") := by decide +kernel

/-! ### counts -/

theorem addFailure_num (f : Fail) (r : Res) (rs : List Res) :
    addFailure f (r :: rs) = { r with failures := f :: r.failures } :: rs := rfl

/-- The body of a test without errors changes only the failures of the newest result. -/
theorem body_ok (as : List Act) (h : errs as = false) : ∀ (r : Res) (rs : List Res),
    ∃ fs, body as (r :: rs) = (false, { r with failures := fs ++ r.failures } :: rs) ∧ (fs = [] ↔ fails as = false) := by
  induction as with
  | nil => intro r rs; exact ⟨[], rfl, by simp [fails]⟩
  | cons a as ih =>
    intro r rs
    cases a with
    | pass =>
      obtain ⟨fs, h1, h2⟩ := ih (by simpa [errs] using h) r rs
      exact ⟨fs, h1, by simpa [fails] using h2⟩
    | fail f =>
      obtain ⟨fs, h1, h2⟩ := ih (by simpa [errs] using h) { r with failures := f :: r.failures } rs
      refine ⟨fs ++ [f], ?_, by simp [fails]⟩
      simp only [body, addFailure]
      rw [h1]
      simp
    | err f => simp [errs] at h

theorem runTests_append (a : List Test) : ∀ (b : List Test) (rs : List Res),
    (runTests a rs).1 = false → runTests (a ++ b) rs = runTests b (runTests a rs).2 := by
  induction a with
  | nil => intro b rs _; rfl
  | cons t a ih =>
    intro b rs h
    simp only [List.cons_append, runTests] at h ⊢
    generalize runTest t rs = r at h ⊢
    obtain ⟨o, u⟩ := r
    cases o with
    | true => cases h
    | false => exact ih b u h

/-- The results of tests without errors, newest first, on top of the older ones. -/
theorem runTests_ok (ts : List Test) (h : ∀ t ∈ ts, errs t.acts = false) : ∀ rs, ∃ new,
    runTests ts rs = (false, new ++ rs) ∧ new.map Res.name = (ts.map Test.name).reverse ∧
    new.map Res.numTests = List.replicate ts.length 1 ∧
    new.map Res.numFailures = (ts.map fun t => if fails t.acts then 1 else 0).reverse := by
  induction ts with
  | nil => intro rs; exact ⟨[], rfl, rfl, rfl, rfl⟩
  | cons t ts ih =>
    intro rs
    obtain ⟨fs, h1, h2⟩ := body_ok t.acts (h t (List.mem_cons_self ..))
      { name := t.name, tests := [t.name], failures := [], time := [48] } rs
    have hr : runTest t rs = (false, ⟨t.name, [t.name], fs, t.time⟩ :: rs) := by
      simp only [runTest, addTest]
      rw [h1]
      simp [setTime]
    obtain ⟨new, h3, h4, h5, h6⟩ := ih (fun t ht => h t (List.mem_cons_of_mem _ ht)) (⟨t.name, [t.name], fs, t.time⟩ :: rs)
    refine ⟨new ++ [⟨t.name, [t.name], fs, t.time⟩], ?_, ?_, ?_, ?_⟩
    · simp only [runTests, hr]
      simpa using h3
    · simp [h4]
    · rw [List.map_append, h5]
      simp [Res.numTests, List.replicate_succ']
    · rw [List.map_append, h6]
      simp only [List.map_cons, List.map_nil, List.reverse_cons, Res.numFailures]
      congr 2
      by_cases hf : fails t.acts = true
      · have : fs ≠ [] := fun e => by rw [h2.1 e] at hf; cases hf
        simp [hf, this]
      · have : fs = [] := h2.2 (by simpa using hf)
        simp [hf, this]

theorem sum_ite (ts : List Test) :
    (ts.map fun t => if fails t.acts then 1 else 0).sum = (ts.filter fun t => fails t.acts).length := by
  induction ts with
  | nil => rfl
  | cons t ts ih =>
    by_cases h : fails t.acts = true
    · simp [h, ih]; omega
    · simp [h, ih]

theorem passed_eq (rs : List Res) :
    (rs.map Res.numSuccesses).sum = ((rs.map Res.numTests).sum : Int) - (rs.map Res.numFailures).sum := by
  induction rs with
  | nil => rfl
  | cons r rs ih => simp only [List.map_cons, List.sum_cons, ih, Res.numSuccesses]; omega

theorem any_failures (rs : List Res) :
    rs.any (fun x => x.numFailures != 0) = decide ((rs.map Res.numFailures).sum ≠ 0) := by
  induction rs with
  | nil => rfl
  | cons r rs ih =>
    simp only [List.any_cons, ih, List.map_cons, List.sum_cons]
    by_cases h : r.numFailures = 0 <;> simp [h]

/-- Without errors every test is counted once; a test with one or more failed assertions is one
failure; the others are passed; the exit status is 1 just when there is a failure; and the report
has the tests in their order, after `all-test`. -/
theorem C196_counts (ts : List Test) (h : ∀ t ∈ ts, errs t.acts = false) :
    (runAll ts).tests = ts.length ∧
    (runAll ts).failures = (ts.filter fun t => fails t.acts).length ∧
    (runAll ts).passed = (ts.filter fun t => !fails t.acts).length ∧
    (runAll ts).exit = (if ts.any fun t => fails t.acts then some 1 else none) ∧
    (runAll ts).result.reverse.map Res.name = allTest :: ts.map Test.name := by
  obtain ⟨new, h1, h2, h3, h4⟩ := runTests_ok ts h [{ name := allTest, tests := [], failures := [], time := [48] }]
  have hf : ((new ++ [(⟨allTest, [], [], [48]⟩ : Res)]).map Res.numFailures).sum = (ts.filter fun t => fails t.acts).length := by
    rw [List.map_append, h4, List.sum_append, List.sum_reverse, sum_ite]
    simp [Res.numFailures]
  have ht : ((new ++ [(⟨allTest, [], [], [48]⟩ : Res)]).map Res.numTests).sum = ts.length := by
    rw [List.map_append, h3, List.sum_append]
    simp [Res.numTests]
  have hlen : ts.length = (ts.filter fun t => fails t.acts).length + (ts.filter fun t => !fails t.acts).length := by
    clear h h1 h2 h3 h4 hf ht
    induction ts with
    | nil => rfl
    | cons t ts ih => by_cases e : fails t.acts = true <;> simp [e, ih] <;> omega
  have hany : (ts.any fun t => fails t.acts) = decide ((ts.filter fun t => fails t.acts).length ≠ 0) := by
    clear h h1 h2 h3 h4 hf ht hlen
    induction ts with
    | nil => rfl
    | cons t ts ih =>
      cases e : fails t.acts with
      | true => simp [e]
      | false => simp only [List.any_cons, e, Bool.false_or, ih, List.filter_cons, Bool.false_eq_true, if_false]
  refine ⟨?_, ?_, ?_, ?_, ?_⟩
  · simp only [runAll, h1, report]; exact ht
  · simp only [runAll, h1, report]; exact hf
  · simp only [runAll, h1, report]
    show ((new ++ _).map Res.numSuccesses).sum = _
    rw [passed_eq, hf, ht]; omega
  · simp only [runAll, h1, report]
    show (if ((new ++ _).any fun x => x.numFailures != 0) = true then some 1 else none) = _
    rw [any_failures, hf, hany]
  · simp only [runAll, h1, report]
    show ((new ++ [(⟨allTest, [], [], [48]⟩ : Res)]).reverse.map Res.name) = _
    rw [List.map_reverse, List.map_append, h2]
    simp

example : (runAll [⟨[1], [.pass], [48]⟩, ⟨[2], [.fail ⟨[], [], []⟩, .pass, .fail ⟨[], [], []⟩], [48]⟩]).failures = 1 := by
  decide +kernel

theorem putLast_append (f : Fail) (a : List Res) (r : Res) :
    putLast f (a ++ [r]) = a ++ [{ r with tests := allTest :: r.tests, failures := f :: r.failures }] := by
  induction a with
  | nil => rfl
  | cons x a ih =>
    cases a with
    | nil => rfl
    | cons y a => simp only [List.cons_append, putLast] at ih ⊢; rw [ih]

theorem body_err (as : List Act) (h : errs as = true) : ∀ (r : Res) (rs : List Res),
    ∃ f fs, body as (r :: rs) = (true, putLast f ({ r with failures := fs ++ r.failures } :: rs)) ∧
      (fs = [] ↔ fails (upToErr as) = false) := by
  induction as with
  | nil => simp [errs] at h
  | cons a as ih =>
    intro r rs
    cases a with
    | pass =>
      obtain ⟨f, fs, h1, h2⟩ := ih (by simpa [errs] using h) r rs
      exact ⟨f, fs, h1, by simpa [fails, upToErr] using h2⟩
    | fail g =>
      obtain ⟨f, fs, h1, h2⟩ := ih (by simpa [errs] using h) { r with failures := g :: r.failures } rs
      refine ⟨f, fs ++ [g], ?_, by simp [fails, upToErr]⟩
      simp only [body, addFailure]
      rw [h1]
      simp
    | err f => exact ⟨f, [], rfl, by simp [fails, upToErr]⟩

/-- With an error in a test (or a signal) the run ends there with exit status 1, one test and one
failure are counted in addition, and the later tests are not run. -/
theorem C196_error (pre : List Test) (t : Test) (post : List Test) (h : ∀ t ∈ pre, errs t.acts = false)
    (ht : errs t.acts = true) :
    (runAll (pre ++ t :: post)).exit = some 1 ∧
    (runAll (pre ++ t :: post)).tests = pre.length + 2 ∧
    (runAll (pre ++ t :: post)).failures =
      (pre.filter fun t => fails t.acts).length + (if fails (upToErr t.acts) then 1 else 0) + 1 ∧
    (runAll (pre ++ t :: post)).result.reverse.map Res.name = allTest :: (pre.map Test.name ++ [t.name]) := by
  obtain ⟨new, h1, h2, h3, h4⟩ := runTests_ok pre h [{ name := allTest, tests := [], failures := [], time := [48] }]
  obtain ⟨f, fs, h5, h6⟩ := body_err t.acts ht
    { name := t.name, tests := [t.name], failures := [], time := [48] }
    (new ++ [{ name := allTest, tests := [], failures := [], time := [48] }])
  rw [show ({ name := t.name, tests := [t.name], failures := fs ++ [], time := [48] } : Res) :: (new ++ [⟨allTest, [], [], [48]⟩])
    = (⟨t.name, [t.name], fs, [48]⟩ :: new) ++ [⟨allTest, [], [], [48]⟩] by simp, putLast_append] at h5
  have hr : runTests (pre ++ t :: post) [{ name := allTest, tests := [], failures := [], time := [48] }] =
      (true, (⟨t.name, [t.name], fs, [48]⟩ :: new) ++ [⟨allTest, [allTest], [f], [48]⟩]) := by
    rw [runTests_append pre _ _ (by rw [h1]), h1]
    simp only [runTests, runTest, addTest]
    rw [h5]
  have hs : (pre.map fun t => if fails t.acts then 1 else 0).sum = (pre.filter fun t => fails t.acts).length := sum_ite pre
  refine ⟨?_, ?_, ?_, ?_⟩
  · simp only [runAll, hr, report]
  · simp only [runAll, hr, report]
    simp only [List.map_append, List.map_cons, h3, List.sum_append, List.sum_cons]
    simp [Res.numTests]; omega
  · simp only [runAll, hr, report]
    simp only [List.map_append, List.map_cons, h4, List.sum_append, List.sum_cons, List.sum_reverse, hs]
    have : (if fs = [] then 0 else 1) = if fails (upToErr t.acts) = true then 1 else 0 := by
      by_cases e : fails (upToErr t.acts) = true
      · have : fs ≠ [] := fun e' => by rw [h6.1 e'] at e; cases e
        simp [e, this]
      · have : fs = [] := h6.2 (by simpa using e)
        simp [e, this]
    simp only [Res.numFailures, this]
    simp; omega
  · simp only [runAll, hr, report]
    simp [h2]

example : (runAll [⟨[1], [.fail ⟨[], [], []⟩], [48]⟩, ⟨[2], [.err ⟨[], [], []⟩], [48]⟩, ⟨[3], [], [48]⟩]).failures = 2 := by
  decide +kernel

/-- A test that ends in an error is itself reported as passed: the failure is put down to `all-test`. -/
theorem C196_error_passed_wrong :
    (runAll [⟨[1], [.err ⟨[], [], []⟩], [48]⟩]).result.map (fun r => (r.name, r.numTests, r.numFailures)) =
      [([1], 1, 0), (allTest, 1, 1)] := by
  decide +kernel

/-! ### definitions -/

theorem deftests_fst : ∀ ds, (deftests ds).1 = ds
  | [] => rfl
  | (n, as) :: r => by simp [deftests, deftest, deftests_fst r]
theorem deftests_snd : ∀ ds, (deftests ds).2 = ds.map Prod.fst
  | [] => rfl
  | (n, as) :: r => by simp [deftests, deftest, deftests_snd r]

/-- If no name is defined twice the tests run are those defined, in the order of definition. -/
theorem C196_suite_partial (ds : List (List Nat × List Act)) (h : (ds.map Prod.fst).Nodup) :
    (suite ds).map (fun t => (t.name, t.acts)) = ds.reverse := by
  have hl : ∀ (ds : List (List Nat × List Act)), (ds.map Prod.fst).Nodup → ∀ p ∈ ds, ds.lookup p.1 = some p.2 := by
    intro ds
    induction ds with
    | nil => intro _ p hp; cases hp
    | cons q ds ih =>
      intro hn p hp
      simp only [List.map_cons, List.nodup_cons] at hn
      obtain ⟨n, as⟩ := q
      rcases List.mem_cons.1 hp with rfl | hp
      · simp [List.lookup]
      · have hne : (p.1 == n) = false := by
          simp only [beq_eq_false_iff_ne, ne_eq]
          intro e
          exact hn.1 (by rw [← e]; exact List.mem_map.2 ⟨p, hp, rfl⟩)
        simp only [List.lookup, hne]
        exact ih hn.2 p hp
  unfold suite
  rw [deftests_fst, deftests_snd, ← List.map_reverse, List.map_map, List.map_map]
  refine (List.map_congr_left (g := id) fun p hp => ?_).trans (List.map_id _)
  simp [hl ds h p (List.mem_reverse.1 hp)]

example : (suite [([2], [.pass]), ([1], [.fail ⟨[], [], []⟩])]).map (fun t => (t.name, t.acts)) =
  [([1], [.fail ⟨[], [], []⟩]), ([2], [.pass])] := by decide +kernel

/-- A test defined twice is run twice, with the second definition both times; the first, which would
fail, is never run. -/
theorem C196_suite_wrong :
    (suite [([1], [.pass]), ([1], [.fail ⟨[], [], []⟩])]).map (fun t => (t.name, t.acts)) =
      [([1], [.pass]), ([1], [.pass])] ∧
    (runAll (suite [([1], [.pass]), ([1], [.fail ⟨[], [], []⟩])])).tests = 2 ∧
    (runAll (suite [([1], [.pass]), ([1], [.fail ⟨[], [], []⟩])])).exit = none := by
  decide +kernel

/-! ### the XML report -/

theorem fold_tag (t : List (List Nat)) : ∀ (l c : List Nat), (∀ x ∈ l, x ≠ 34 ∧ x ≠ 60 ∧ x ≠ 62) →
    List.foldl step (.tag t c) l = .tag t (c ++ l) := by
  intro l
  induction l with
  | nil => intro c _; simp
  | cons x l ih =>
    intro c hx
    obtain ⟨h1, h2, h3⟩ := hx x (List.mem_cons_self ..)
    simp only [List.foldl_cons, step, h1, h2, h3, if_false]
    rw [ih _ (fun x hm => hx x (List.mem_cons_of_mem _ hm))]
    simp

theorem fold_fail (t : List (List Nat)) (f : Fail) (h : 34 ∉ f.msg ∧ 92 ∉ f.msg) :
    ∃ d, failXml f = some d ∧ d.foldl step (.text t) = .text (t ++ failTags f) := by
  have h92 : 92 ∉ xml f.msg := by
    rw [xml_eq]
    simp only [List.mem_flatMap, not_exists, not_and]
    intro c hc hm
    have hne : c ≠ 92 := fun e => h.2 (e ▸ hc)
    unfold ent at hm
    repeat' split at hm
    all_goals simp at hm
    exact hne hm.symm
  refine ⟨_, by simp only [failXml, escape_eq]; rfl, ?_⟩
  rw [printStr_plain _ ⟨(xml_plain f.msg).2.2 h.1, h92⟩]
  simp only [List.foldl_append, List.foldl_cons, List.cons_append]
  have e1 : List.foldl step (.text t) (chars "   <failure message=") = .tag t (chars "failure message=") := rfl
  have e2 : step (.tag t (chars "failure message=")) 34 = .quoted t (chars "failure message=\"") := rfl
  rw [e1, e2, fold_quoted t (xml f.msg) ⟨(xml_plain f.msg).1, (xml_plain f.msg).2.2 h.1⟩]
  have e3 : ∀ c, List.foldl step (step (.quoted t c) 34) (chars " type=\"AssertionError\">\nTest:")
      = .text (t ++ [c ++ chars "\" type=\"AssertionError\""]) := by
    intro c
    rw [show chars " type=\"AssertionError\">\nTest:" = chars " type=" ++ [34] ++ chars "AssertionError" ++ [34] ++ chars ">\nTest:" by decide]
    simp only [List.foldl_append]
    rw [show step (.quoted t c) 34 = .tag t (c ++ [34]) from rfl, fold_tag _ _ _ (by decide),
      show ∀ c, List.foldl step (.tag t c) [34] = .quoted t (c ++ [34]) from fun _ => rfl,
      fold_quoted t (chars "AssertionError") (by decide),
      show ∀ c, List.foldl step (.quoted t c) [34] = .tag t (c ++ [34]) from fun _ => rfl,
      show ∀ c, List.foldl step (.tag t c) (chars ">\nTest:") = .text (t ++ [c]) from fun _ => rfl]
    simp [chars]
  simp only [List.foldl_nil]
  rw [e3]
  rw [fold_text _ _ (xml_plain f.test).1]
  have e4 : ∀ t, List.foldl step (.text t) (chars "\nTrace:") = .text t := fun _ => rfl
  have e5 : ∀ t, List.foldl step (.text t) (chars "\nMessage:") = .text t := fun _ => rfl
  have e6 : ∀ t, List.foldl step (.text t) (chars "\n   </failure>\n") = .text (t ++ [chars "/failure"]) := fun _ => rfl
  rw [e4, fold_text _ _ (xml_plain f.trace).1, e5, fold_text _ _ (xml_plain (printStr f.msg)).1, e6]
  simp [failTags]

theorem fold_fails (fs : List Fail) (h : ∀ f ∈ fs, 34 ∉ f.msg ∧ 92 ∉ f.msg) : ∀ t,
    ∃ d, failsXml fs = some d ∧ d.foldl step (.text t) = .text (t ++ fs.flatMap failTags) := by
  induction fs with
  | nil => intro t; exact ⟨[], rfl, by simp⟩
  | cons f fs ih =>
    intro t
    obtain ⟨d1, h1, h2⟩ := fold_fail t f (h f (List.mem_cons_self ..))
    obtain ⟨d2, h3, h4⟩ := ih (fun f hf => h f (List.mem_cons_of_mem _ hf)) (t ++ failTags f)
    refine ⟨d1 ++ d2, by simp [failsXml, h1, h3], ?_⟩
    rw [List.foldl_append, h2, h4]
    simp

theorem fold_res (t : List (List Nat)) (r : Res) (hn : plain r.name) (ht : plain r.time)
    (h : ∀ f ∈ r.failures, 34 ∉ f.msg ∧ 92 ∉ f.msg) :
    ∃ d, resXml r = some d ∧ d.foldl step (.text t) = .text (t ++ resTags r) := by
  obtain ⟨fs, h1, h2⟩ := fold_fails r.failures h (t ++ [chars "testcase name=\"" ++ r.name ++ chars "\" status=\"run\" time=\"" ++ r.time
    ++ chars "\" classname=\"" ++ r.name ++ chars "\""])
  refine ⟨_, by simp only [resXml, h1]; rfl, ?_⟩
  simp only [List.foldl_append]
  have e1 : List.foldl step (.text t) (chars "  <testcase name=\"") = .quoted t (chars "testcase name=\"") := rfl
  have e2 : ∀ c, List.foldl step (.quoted t c) (chars "\" status=\"run\" time=\"") = .quoted t (c ++ chars "\" status=\"run\" time=\"") := by
    intro c
    rw [show chars "\" status=\"run\" time=\"" = [34] ++ chars " status=" ++ [34, 114, 117, 110, 34] ++ chars " time=" ++ [34] by decide]
    simp only [List.foldl_append]
    rw [show List.foldl step (.quoted t c) [34] = .tag t (c ++ [34]) from rfl, fold_tag _ _ _ (by decide),
      show ∀ c, List.foldl step (.tag t c) [34, 114, 117, 110, 34] = .tag t (((((c ++ [34]) ++ [114]) ++ [117]) ++ [110]) ++ [34]) from fun _ => rfl,
      fold_tag _ _ _ (by decide)]
    show Scan.quoted t _ = _
    simp
  have e3 : ∀ c, List.foldl step (.quoted t c) (chars "\" classname=\"") = .quoted t (c ++ chars "\" classname=\"") := by
    intro c
    rw [show chars "\" classname=\"" = [34] ++ chars " classname=" ++ [34] by decide]
    simp only [List.foldl_append]
    rw [show List.foldl step (.quoted t c) [34] = .tag t (c ++ [34]) from rfl, fold_tag _ _ _ (by decide)]
    show Scan.quoted t _ = _
    simp
  have e4 : ∀ c, List.foldl step (.quoted t c) (chars "\">\n") = .text (t ++ [c ++ chars "\""]) := fun _ => rfl
  have e5 : ∀ t, List.foldl step (.text t) (chars "  </testcase>\n") = .text (t ++ [chars "/testcase"]) := fun _ => rfl
  rw [e1, fold_quoted _ _ hn, e2, fold_quoted _ _ ht, e3, fold_quoted _ _ hn, e4, h2, e5]
  simp [resTags]

theorem fold_results (rs : List Res) (h : ∀ r ∈ rs, plain r.name ∧ plain r.time ∧ ∀ f ∈ r.failures, 34 ∉ f.msg ∧ 92 ∉ f.msg) : ∀ t,
    ∃ d, resultsXml rs = some d ∧ d.foldl step (.text t) = .text (t ++ rs.flatMap resTags) := by
  induction rs with
  | nil => intro t; exact ⟨[], rfl, by simp⟩
  | cons r rs ih =>
    intro t
    obtain ⟨h0, h1, h2⟩ := h r (List.mem_cons_self ..)
    obtain ⟨d1, h3, h4⟩ := fold_res t r h0 h1 h2
    obtain ⟨d2, h5, h6⟩ := ih (fun r hr => h r (List.mem_cons_of_mem _ hr)) (t ++ resTags r)
    refine ⟨d1 ++ d2, by simp [resultsXml, h3, h5], ?_⟩
    rw [List.foldl_append, h4, h6]
    simp

/-- The report is a document whose tags are those of the specification: one testcase for every
result, and in it one failure for every failed assertion, with its message. For names without < and
double quote and messages without double quote and backslash. Missing: those, see the theorems
below. -/
theorem C196_xml_partial (p : Report) (total : List Nat) (ht : plain total)
    (h : ∀ r ∈ p.result, plain r.name ∧ plain r.time ∧ ∀ f ∈ r.failures, 34 ∉ f.msg ∧ 92 ∉ f.msg) :
    ∃ d, suiteXml p total = some d ∧
      tags d = some (suiteTags p.result.reverse p.tests p.failures total) := by
  obtain ⟨b, h1, h2⟩ := fold_results p.result.reverse (fun r hr => h r (List.mem_reverse.1 hr))
    [chars "testsuite tests=\"" ++ dec p.tests ++ chars "\" failures=\"" ++ dec p.failures
      ++ chars "\" disabled=\"0\" errors=\"0\" time=\"" ++ total ++ chars "\" name=\"AllTests\""]
  refine ⟨_, by simp only [suiteXml, h1]; rfl, ?_⟩
  have e1 : List.foldl step (.text []) (chars "<testsuite tests=\"") = .quoted [] (chars "testsuite tests=\"") := rfl
  have e2 : ∀ c, List.foldl step (.quoted [] c) (chars "\" failures=\"") = .quoted [] (c ++ chars "\" failures=\"") := by
    intro c
    rw [show chars "\" failures=\"" = [34] ++ chars " failures=" ++ [34] by decide]
    simp only [List.foldl_append]
    rw [show List.foldl step (.quoted [] c) [34] = .tag [] (c ++ [34]) from rfl, fold_tag _ _ _ (by decide)]
    show Scan.quoted [] _ = _
    simp
  have e3 : ∀ c, List.foldl step (.quoted [] c) (chars "\" disabled=\"0\" errors=\"0\" time=\"") = .quoted [] (c ++ chars "\" disabled=\"0\" errors=\"0\" time=\"") := by
    intro c
    rw [show chars "\" disabled=\"0\" errors=\"0\" time=\"" = [34] ++ chars " disabled=" ++ [34, 48, 34] ++ chars " errors=" ++ [34, 48, 34] ++ chars " time=" ++ [34] by decide]
    simp only [List.foldl_append]
    rw [show List.foldl step (.quoted [] c) [34] = .tag [] (c ++ [34]) from rfl, fold_tag _ _ _ (by decide)]
    rw [show ∀ c, List.foldl step (.tag [] c) [34, 48, 34] = .tag [] (((c ++ [34]) ++ [48]) ++ [34]) from fun _ => rfl, fold_tag _ _ _ (by decide)]
    rw [show ∀ c, List.foldl step (.tag [] c) [34, 48, 34] = .tag [] (((c ++ [34]) ++ [48]) ++ [34]) from fun _ => rfl, fold_tag _ _ _ (by decide)]
    show Scan.quoted [] _ = _
    simp
  have e4 : ∀ c, List.foldl step (.quoted [] c) (chars "\" name=\"AllTests\">\n") = .text [c ++ chars "\" name=\"AllTests\""] := by
    intro c
    rw [show chars "\" name=\"AllTests\">\n" = [34] ++ chars " name=" ++ [34] ++ chars "AllTests" ++ [34] ++ [62, 10] by decide]
    simp only [List.foldl_append]
    rw [show List.foldl step (.quoted [] c) [34] = .tag [] (c ++ [34]) from rfl, fold_tag _ _ _ (by decide),
      show ∀ c, List.foldl step (.tag [] c) [34] = .quoted [] (c ++ [34]) from fun _ => rfl,
      fold_quoted [] (chars "AllTests") (by decide),
      show ∀ c, List.foldl step (.quoted [] c) [34] = .tag [] (c ++ [34]) from fun _ => rfl,
      show ∀ c, List.foldl step (.tag [] c) [62, 10] = .text ([] ++ [c]) from fun _ => rfl]
    simp [chars]
  have e5 : ∀ t, List.foldl step (.text t) (chars "</testsuite>\n") = .text (t ++ [chars "/testsuite"]) := fun _ => rfl
  unfold tags
  simp only [List.foldl_append]
  rw [e1, fold_quoted _ _ (dec_plain _), e2, fold_quoted _ _ (dec_plain _), e3, fold_quoted _ _ ht, e4, h2, e5]
  simp [suiteTags]

example : (suiteXml (runAll [⟨chars "t1", [.fail ⟨chars "(> 1 2)", chars "1<2", chars "x"⟩], [48]⟩]) [48]).bind tags =
    some [chars "testsuite tests=\"1\" failures=\"1\" disabled=\"0\" errors=\"0\" time=\"0\" name=\"AllTests\"",
      chars "testcase name=\"all-test\" status=\"run\" time=\"0\" classname=\"all-test\"", chars "/testcase",
      chars "testcase name=\"t1\" status=\"run\" time=\"0\" classname=\"t1\"",
      chars "failure message=\"1&lt;2\" type=\"AssertionError\"", chars "/failure", chars "/testcase", chars "/testsuite"] := by
  decide +kernel

/-- A message with a double quote breaks the document: the attribute value ends at the quote. -/
theorem C196_quote_wrong :
    (suiteXml (runAll [⟨chars "t1", [.fail ⟨chars "x", chars "a\"b", chars "y"⟩], [48]⟩]) [48]).bind tags = none := by
  decide +kernel

/-- So does a test whose name has a <, such as `test-<`. -/
theorem C196_name_wrong : (suiteXml (runAll [⟨chars "test-<", [.pass], [48]⟩]) [48]).bind tags = none := by
  decide +kernel

/-! ### the file -/

theorem leftTrim_append (bag a b : List Nat) (h : ∀ c ∈ a, c ∈ bag) : leftTrim bag (a ++ b) = leftTrim bag b := by
  induction a with
  | nil => rfl
  | cons c a ih =>
    simp only [List.cons_append, leftTrim, h c (List.mem_cons_self ..), if_true]
    exact ih fun c hc => h c (List.mem_cons_of_mem _ hc)

/-- `--gtest_output=xml:NAME` makes NAME the report if NAME does not begin with one of the
characters of `--gtest_output=xml:`. Missing: other names, see `C196_file_wrong`. -/
theorem C196_file_partial (c : Nat) (name : List Nat) (h : c ∉ chars "--gtest_output=xml:") :
    xmlName (chars "--gtest_output=xml:" ++ c :: name) = c :: name := by
  unfold xmlName prefixArg
  rw [leftTrim_append _ _ _ (fun _ h => h)]
  simp [leftTrim, h]

example : xmlName (chars "--gtest_output=xml:/tmp/r.xml") = chars "/tmp/r.xml" := by decide +kernel

/-- The report asked for as `test.xml` is written to `.xml`. -/
theorem C196_file_wrong : xmlName (chars "--gtest_output=xml:test.xml") = chars ".xml" := by decide +kernel

end Eus.Utt
