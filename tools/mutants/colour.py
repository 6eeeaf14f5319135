F='Fusion/Model.lean'
M('co-newarg',F,'newArg','| .points => some (picked fr m fr.gv)','| .points => some (picked fr m fr.rgb)','C92','new points taken from the colour image')
M('co-newnorm',F,'newArg','| .normals => some (picked fr m fr.gn)','| .normals => some (picked fr m fr.rgb)','C92','new normals taken from the colour image')
M('co-newconf',F,'pickedAl','al (fr.v b x.1 x.2.1 x.2.2)','al (fr.rgb b x.1 x.2.1 x.2.2)','C92','confidence computed from the colour')
M('co-similar',F,'similarAt','areNormalsSimilar (scatter rows fr.gn b n)','areNormalsSimilar (scatter rows fr.rgb b n)','C92','colours compared instead of normals')
M('co-frame',F,'frameArg','| .points => some (picked fr m (if glob then fr.gv else fr.v))','| .points => some (picked fr m (if glob then fr.gv else fr.rgb))','C92','the live cloud of ICP holds colours')
M('co-merge',F,'mergeStep','(scatter rows fr.gv b n)','(scatter rows fr.rgb b n)','C92','points averaged with colours')
M('co-mergecol',F,'mergeStep','(scatter rows fr.rgb b n)','(scatter rows fr.gv b n)','C92','colours averaged with points')
M('co-drop',F,'newArg','| .colors => some (picked fr m fr.rgb)','| .colors => some (picked fr m fr.gn)','C92','new colours are normals')
F='Icp/Model.lean'
M('co-provide',F,'provide','match (getList .points maps).1, (getList .points frames).1 with','match (getList .points maps).1, (getList .colors frames).1 with','C92','ICP reads the colours of the live cloud')
M('co-provn',F,'provide','match (getList .normals maps).1 with','match (getList .colors maps).1 with','C92','ICP reads the colours of the map as normals')
