F='Flt/Model.lean'
M('fl-swap',F,'mergeF','F.rnd (c * x) + F.rnd (a * q)','F.rnd (c * q) + F.rnd (a * x)','C90','weights swapped')
M('fl-div',F,'mergeF','F.rnd (F.rnd (F.rnd (c * x) + F.rnd (a * q)) * F.rnd (1 / guard0 (F.rnd (c + a))))','F.rnd (F.rnd (F.rnd (c * x) + F.rnd (a * q)) / guard0 (F.rnd (c + a)))','C90','divides instead of multiplying by the rounded reciprocal (other drift)')
M('fl-oldcount',F,'mergeF','guard0 (F.rnd (c + a))','guard0 c','C90','divides by the old count')
M('fl-one',F,'mergeF','1 / guard0 (F.rnd (c + a))','1 / guard0 (F.rnd (c + 1))','C90','every observation counts one in the divisor')
M('fl-guard',F,'mergeF','guard0 (F.rnd (c + a))','(F.rnd (c + a))','C90','no guard against a zero count')
M('fl-lerp',F,'mergeF','F.rnd (F.rnd (F.rnd (c * x) + F.rnd (a * q)) * F.rnd (1 / guard0 (F.rnd (c + a))))','F.rnd (x + F.rnd (F.rnd (a * F.rnd (q - x)) * F.rnd (1 / guard0 (F.rnd (c + a)))))','C90','incremental mean (idle points stay exact)')
M('fl-noround',F,'mergeF','F.rnd (c * x) + F.rnd (a * q)','c * x + a * q','C90','products not rounded')
M('fl-comp',F,'mergeRowF','(comp q k)','(comp q 0)','C90','first component of the frame for all')
M('fl-coef',F,'mergeRowF','coef c k','coef c 0 + coef c k','C90','count doubled')
M('fl-count',F,'mergeStepF','r.map fun c => F.rnd (c + a b n)','r','C90','counts not updated')
M('fl-count2',F,'mergeStepF','F.rnd (c + a b n)','(c + a b n)','C90','counts not rounded')
M('fl-count3',F,'mergeStepF','F.rnd (c + a b n)','F.rnd (c + 1)','C90','every point counted as seen')
M('fl-gn',F,'mergeStepF','(scatter rows fr.gn b n)','(scatter rows fr.ln b n)','C90','local normals merged')
M('fl-gv',F,'mergeStepF','(scatter rows fr.gv b n)','(scatter rows fr.v b n)','C90','camera-frame points merged')
M('fl-rgb',F,'mergeStepF','(scatter rows fr.rgb b n)','(scatter rows fr.gv b n)','C90','points merged into colours')
M('fl-mask',F,'fuseWithMapF','newMask fr (if use then rows else [])','newMask fr []','C90','matched pixels appended again')
M('fl-use',F,'fuseWithMapF','h && decide (rows.length ≠ 0)','h','C90','merges although there are no matches')
M('fl-use2',F,'fuseWithMapF','decide (rows.length ≠ 0)','decide (rows.length > 1)','C90','a single match is not merged')
M('fl-inplace',F,'fuseWithMapF','cloneAppend inplace pc o','cloneAppend (!inplace) pc o','C90','inplace inverted')
F='Flt/Format.lean'
M('fl-prec',F,'pos','Int.log 2 x - p + 1)) : ℝ) * 2 ^ (Int.log 2 x - p + 1)','Int.log 2 x - p + 2)) : ℝ) * 2 ^ (Int.log 2 x - p + 2)','C90','one bit fewer')
M('fl-sign',F,'rndBin','if x < 0 then -pos p (-x) else pos p x','if x < 0 then pos p (-x) else pos p x','C90','sign lost')
M('fl-f32',F,'f32Fmt','bin 24','bin 23','C90','23 bits')
