F='Cfg/Print.lean'
M('print-indent-0',F,'attrStr','indent 2','indent 0','C70','nested lines are not indented')
M('print-nosort',F,'joinItems','(sortItems l).map','l.map','C70','items in insertion order')
M('print-sep',F,'attrRaw',"(if e.2.1 then '\\n' else ' ')","' '",'C70','sections are printed on the line of their key')
M('print-sep-swap',F,'attrRaw',"if e.2.1 then '\\n' else ' '","if e.2.1 then ' ' else '\\n'",'C70','separators exchanged')
M('print-nocolon',F,'attrRaw',"e.1.toList ++ ':' ::","e.1.toList ++",'C70','colon missing')
M('print-nokey',F,'attrRaw',"e.1.toList ++ ':' ::","':' ::",'C70','key missing')
M('print-drop',F,'joinItems','((sortItems l).map attrStr)','((sortItems l).tail.map attrStr)','C70','first option not printed')
M('print-sub',F,'items','(k, true, joinItems (items sh shDict es)) :: items','(k, true, []) :: items','C70','contents of sections not printed')
M('print-indent-first',F,'indent',"first ++ '\\n' :: joinNl (rest.map (List.replicate n ' ' ++ ·))","joinNl ((first :: rest).map (List.replicate n ' ' ++ ·))",'C70','first line indented as well')
M('print-indent-last',F,'indent',"rest.map (List.replicate n ' ' ++ ·)","rest.dropLast.map (List.replicate n ' ' ++ ·)",'C70','last line of a value lost')
F='Cfg/Load.lean'
M('load-ext-yml',F,'loadFile','["".toList, ".yml".toList, ".yaml".toList]','["".toList, ".yaml".toList]','C71','.yml not recognised')
M('load-ext-none',F,'loadFile','["".toList, ".yml".toList, ".yaml".toList]','[".yml".toList, ".yaml".toList]','C71','files without extension refused')
M('load-ext-any',F,'loadFile','else .error .unsupported','else loadYaml E contents','C71','unknown extensions read as YAML')
M('load-ext-py',F,'loadFile','then loadPy E name','then loadYaml E contents','C71','Python files parsed as YAML')
M('load-split-first',F,'splitext','let dot := rfind \'.\' s','let dot : Int := s.idxOf \'.\'','C71','extension starts at the first dot')
M('load-split-hidden',F,'splitext','if sep < dot ∧ ((s.take dot.toNat).drop (sep + 1).toNat).any (· ≠ \'.\')','if sep < dot','C71','hidden files have an extension')
M('load-split-dir',F,'splitext','if sep < dot ∧','if 0 ≤ dot ∧','C71','a dot in a directory name starts an extension')
M('load-py-nocfg',F,'loadPy','| .module none => .error (.cfg .assertion)','| .module none => constructL .nil','C71','module without cfg gives the empty config')
M('load-py-nondict',F,'loadPy','| .module (some (.leaf _)) => .error (.cfg .assertion)','| .module (some (.leaf _)) => constructL .nil','C71','module whose cfg is no mapping gives the empty config')
M('load-py-name',F,'loadFile','loadPy E name','loadPy E contents','C71','imports the contents instead of the path')
M('load-yaml-empty',F,'loadYaml','| some .none => constructL .nil','| some .none => .error .parse','C71','empty document refused')
M('load-yaml-other',F,'loadYaml','| some (.other _) => .error (.cfg .attributeError)','| some (.other _) => constructL .nil','C71','scalar document gives the empty config')
M('load-construct-new',F,'constructL','construct d false','construct d true','C71','loaded config accepts new keys')
M('load-other',F,'loadCfg','| .other => .error (.cfg .assertion)','| .other => constructL .nil','C71','other arguments accepted')
M('merge-file-missing',F,'mergeFromFile','| none => (es, some .notFound)','| none => (es, none)','C71','missing file ignored')
M('merge-file-fail',F,'mergeFromFile','| .error e => (es, some e)','| .error e => (.nil, some e)','C71','config cleared when the file cannot be loaded')
M('merge-file-swallow',F,'mergeFromFile','| (es\', some e) => (es\', some (.cfg e))','| (es\', some _) => (es\', none)','C71','merge errors swallowed')
M('merge-file-replace',F,'mergeFromFile','| (es\', none) => (es\', none)','| (_, none) => (es, none)','C71','result of the merge thrown away')
M('merge-file-text',F,'mergeFromFile','loadCfg E (.file path contents)','loadCfg E (.text contents)','C71','file name ignored')
M('dump-raw',F,'dump','| .ok d => .ok (dumpY d)','| .ok _ => .ok (dumpY t)','C71','nodes dumped without converting them to dicts')
