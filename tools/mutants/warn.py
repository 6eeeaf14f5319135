W='Warn/Model.lean'
M('wa-aempty',W,'activeWarn','if (hasAttr .points pc).1 && decide (rows.length = 0) then','if decide (rows.length = 0) then','C113','an empty map is warned about, too')
M('wa-aone',W,'activeWarn','decide (rows.length = 0)','decide (rows.length ≤ 1)','C113','warned about with one active point')
M('wa-anon',W,'activeWarn','then [.noActive] else []','then [] else [.noActive]','C113','condition negated')
M('wa-dmin',W,'dotsExceed','(List.range (shape3 nn).1).any','(List.range (shape3 nn).1).all','C113','all batch elements instead of some')
M('wa-drange',W,'dotsExceed','(List.range (shape3 nn).2.1).any','(List.range ((shape3 nn).2.1 - 1)).any','C113','last point not looked at')
M('wa-dth',W,'dotsExceed','1001 / 1000 <','1 / 2 <','C113','wrong bound for dot products')
M('wa-scount',W,'similarWarn','.noSimilar rows.length','.noSimilar out.length','C113','the number of similar points is reported')
M('wa-srows',W,'similarWarn','if out.length = 0 then','if out.length ≤ 1 then','C113','warned about with one similar point')
M('wa-searly',W,'similarWarn','if !(hasAttr .points pc).1 || decide (rows.length = 0) then []\n    else\n','if !(hasAttr .points pc).1 then []\n    else\n','C113','no early return without active points')
M('wa-sorder',W,'similarWarn','if dotsExceed r.frame rows (nn.getD []) then [.dots] else []','if dotsExceed r.frame [] (nn.getD []) then [.dots] else []','C113','dot products of the empty table')
M('wa-mlive',W,'mapWarn','activeWarn pc (camera live) ++','[] ++','C113','the update does not warn about active points')
M('wa-magg',W,'mapWarn','  | .aggregate => []','  | .aggregate => activeWarn pc (camera live)','C113','ICPSLAM looks for active points in the update')
M('wa-lgt',W,'localizeWarn','| .gt, some _ => [.prevIgnored]','| .gt, some _ => []','C113','no warning about an ignored frame')
M('wa-lgt2',W,'localizeWarn','| .gt, none => []','| .gt, none => [.prevMissing]','C113','missing frame reported with ground truth')
M('wa-lmiss',W,'localizeWarn','if (hasAttr .points pc).1 then [.prevMissing] else []','[.prevMissing]','C113','missing frame reported for empty maps')
M('wa-lcam',W,'localizeWarn','activeWarn pc (camera prev)','activeWarn pc (camera live)','C113','the search uses the live frame')
M('wa-sloc',W,'stepWarn','  localizeWarn S pc live prev ++\n','','C113','warnings of _localize dropped')
M('wa-iprev',W,'iterWarn','stepWarn S x.pc live x.prev','stepWarn S x.pc live none','C113','forward passes no previous frame')
M('wa-itn',W,'itersWarn','itersWarn S frames n ++\n    match','match','C113','only the last frame')
M('wa-fwd',W,'forwardWarn','itersWarn S frames frames.L','itersWarn S frames (frames.L - 1)','C113','the last frame is left out')
# the models underneath
M('wa-iter',"Slam/Model.lean",'iter','if S.odom.isGt then none else some live','some live','C113','forward passes the previous frame with ground truth, too')
M('wa-iter2',"Slam/Model.lean",'iter','if S.odom.isGt then none else some live','none','C113','forward never passes a previous frame')
