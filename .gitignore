lean/.lake/
lean/build/
*.olean
lean/lake-manifest.json
