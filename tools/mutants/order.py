F='Fusion/Model.lean'
M('or-keydist',F,'keyLE','(x.dist < y.dist ∨ x.dist = y.dist ∧ x.n ≤ y.n)','x.n ≤ y.n','C36 C97','equally confident candidates: the first listed wins, not the nearest')
M('or-keyidx',F,'keyLE','(x.invc < y.invc ∨ x.invc = y.invc ∧\n    (x.dist < y.dist ∨ x.dist = y.dist ∧ x.n ≤ y.n))','x.n ≤ y.n','C36 C97','the first listed candidate wins')
M('or-active0',F,'activeRows','(cell q b n) ((m.getD b []).getD n false)','(cell q b n) ((m.getD b []).getD n false) && decide (n ≠ 0)','C34 C97','the first map point is never active')
M('or-merge0',F,'scatterAl','| some r => al (fr.v r.b 0 r.h r.w)','| some r => if n = 0 then 0 else al (fr.v r.b 0 r.h r.w)','C37 C97','the first map point never takes weight')
F='Icp/Model.lean'
M('or-row',F,'gaussNewton','rowA s (nrm.getD (nn tgt s) V3.zero), 6','rowA s (nrm.getD 0 V3.zero), 6','C97','always the first normal')
M('or-sqerr',F,'sqErr','(b.rows.map fun r => r.getD 0 0 * r.getD 0 0).sum','((b.rows.take 1).map fun r => r.getD 0 0 * r.getD 0 0).sum','C54 C97','the error is that of the first point only')
M('or-gather',F,'gather','⟨(rows.filter fun r => r.b = b).map','⟨((rows.filter fun r => r.b = b).drop 1).map','C56 C97','the first selected row is lost')
M('or-gatherAlign',F,'gather','(l.getD b ⟨[], 0⟩).rows.getD r.n []','(l.getD b ⟨[], 0⟩).rows.getD (r.n - 1) []','C56 C97','off by one when gathering')
F='Slam/Model.lean'
M('or-prev',F,'odometry','match Icp.downsamplePointclouds pc rows S.ds with','match Icp.downsamplePointclouds pc (rows.filter fun r => decide (r.n ≠ 0)) S.ds with','C97','the first map point is left out of the registration target')
