"""Writes lean/Verif/Audit.lean: the axioms of every theorem in MANIFEST.json."""
import json,re
m=json.load(open('/verif/MANIFEST.json'))
ths=[t for c in m['claims'] for t in c['theorems']]
imports=[l for l in open('/verif/lean/Verif.lean').read().split('\n') if l.startswith('import') and 'Audit' not in l]
open('/verif/lean/Verif/Audit.lean','w').write('\n'.join(imports)+'\n\n/-! The axioms of every property theorem (written by tools/audit.py). -/\n\n'+'\n'.join('#print axioms '+t for t in dict.fromkeys(ths))+'\n')
