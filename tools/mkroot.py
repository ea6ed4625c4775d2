"""Write lean/Verif.lean: one import per module under lean/Verif. Run from the repository root."""
import glob
ms = sorted(f[5:-5].replace('/', '.') for f in glob.glob('lean/Verif/**/*.lean', recursive=True))
open('lean/Verif.lean', 'w').write(''.join(f'import {m}\n' for m in ms))
